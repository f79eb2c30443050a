import Verif.Lemmas.Ampere
import Verif.Spec.FluxFunction
import Mathlib.MeasureTheory.Integral.IntervalIntegral.Periodic
import Mathlib.Analysis.SpecialFunctions.Trigonometric.Bounds

set_option linter.unusedSectionVars false

/-!
# The flux at a point as an integral over the current density
-/

namespace FreeGS.GS

open Real Set MeasureTheory

variable {P : ℝ × ℝ}

/-! ## Near the filament -/

/-- A bound for the inverse cube of the distance from the filament. -/
noncomputable def cubic (ε m φ : ℝ) : ℝ := 1 / √(ε ^ 2 + (m * φ) ^ 2) ^ 3

theorem cubic_cont {ε m : ℝ} (hε : 0 < ε) : Continuous (cubic ε m) := by
  unfold cubic
  refine continuous_const.div (by fun_prop) fun y => ?_
  have : 0 < ε ^ 2 + (m * y) ^ 2 := by positivity
  positivity

theorem cubic_integral {ε m : ℝ} (hε : 0 < ε) (hm : 0 < m) : ∫ φ in (-π)..π, cubic ε m φ ≤ 2 / (ε ^ 2 * m) := by
  have hpi := pi_pos
  have hd : ∀ y : ℝ, HasDerivAt (fun y => 1 / ε ^ 2 * (y / √(ε ^ 2 + (m * y) ^ 2))) (cubic ε m y) y := by
    intro y
    have p : 0 < ε ^ 2 + (m * y) ^ 2 := by positivity
    have s := Real.sqrt_pos.mpr p
    have q := Real.sq_sqrt p.le
    have h1 : HasDerivAt (fun y : ℝ => y) 1 y := hasDerivAt_id y
    have h2 : HasDerivAt (fun y : ℝ => ε ^ 2 + (m * y) ^ 2) (2 * (m * y) * m) y := by
      refine (((h1.const_mul m).pow 2).const_add (ε ^ 2)).congr_deriv ?_
      norm_num
    refine ((h1.div (h2.sqrt p.ne') s.ne').const_mul (1 / ε ^ 2)).congr_deriv ?_
    rw [cubic]
    have e : ε ^ 2 = √(ε ^ 2 + (m * y) ^ 2) ^ 2 - (m * y) ^ 2 := by rw [q]; ring
    have he : ε ^ 2 ≠ 0 := by positivity
    have k : √(ε ^ 2 + (m * y) ^ 2) ^ 2 - m ^ 2 * y ^ 2 = ε ^ 2 := by rw [q]; ring
    field_simp
    rw [show ε ^ 2 + m ^ 2 * y ^ 2 = ε ^ 2 + (m * y) ^ 2 by ring, k]
  rw [intervalIntegral.integral_eq_sub_of_hasDerivAt (fun y _ => hd y) ((cubic_cont hε).intervalIntegrable _ _)]
  have lo : m * π ≤ √(ε ^ 2 + (m * π) ^ 2) := Real.le_sqrt_of_sq_le (by nlinarith [sq_nonneg ε])
  have s : 0 < √(ε ^ 2 + (m * π) ^ 2) := lt_of_lt_of_le (by positivity) lo
  have e : (m * -π) ^ 2 = (m * π) ^ 2 := by ring
  rw [e]
  have hle : π / √(ε ^ 2 + (m * π) ^ 2) ≤ 1 / m := by
    rw [div_le_div_iff₀ s hm]
    linarith
  calc 1 / ε ^ 2 * (π / √(ε ^ 2 + (m * π) ^ 2)) - 1 / ε ^ 2 * (-π / √(ε ^ 2 + (m * π) ^ 2))
      = 2 / ε ^ 2 * (π / √(ε ^ 2 + (m * π) ^ 2)) := by ring
    _ ≤ 2 / ε ^ 2 * (1 / m) := mul_le_mul_of_nonneg_left hle (by positivity)
    _ = 2 / (ε ^ 2 * m) := by field_simp

/-- On the edge of a small square around the filament. -/
structure Around (P : ℝ × ℝ) (ε : ℝ) (q : ℝ × ℝ) : Prop where
  pos : 0 < ε
  small : ε ≤ P.1 / 2
  R : |q.1 - P.1| ≤ ε
  Z : |q.2 - P.2| ≤ ε
  out : ε ^ 2 ≤ (q.1 - P.1) ^ 2 + (q.2 - P.2) ^ 2

theorem Around.radius {ε : ℝ} {q : ℝ × ℝ} (h : Around P ε q) : P.1 / 2 ≤ q.1 := by
  linarith [(abs_le.mp h.R).1, h.small]

/-- The distance from a point of the filament at an angle. -/
theorem near_dist (hP0 : 0 < P.1) {ε : ℝ} {q : ℝ × ℝ} (h : Around P ε q) {φ : ℝ} (hφ : |φ| ≤ π) :
    √(ε ^ 2 + (P.1 / π * φ) ^ 2) ≤ sourceDist P.1 P.2 q.1 q.2 φ := by
  refine Real.le_sqrt_of_sq_le ?_
  have hpi := pi_pos
  rw [Real.sq_sqrt (by positivity), sourceDist_sq]
  have hc := Real.cos_le_one_sub_mul_cos_sq hφ
  have hr := h.radius
  have ho := h.out
  have k : P.1 / 2 * P.1 * (2 / π ^ 2 * φ ^ 2) ≤ q.1 * P.1 * (1 - cos φ) :=
    mul_le_mul (mul_le_mul_of_nonneg_right hr hP0.le) (by linarith) (by positivity) (mul_nonneg (by linarith) hP0.le)
  have e : (P.1 / π * φ) ^ 2 = P.1 / 2 * P.1 * (2 / π ^ 2 * φ ^ 2) := by field_simp
  have p : 0 ≤ P.1 / 2 * P.1 * (2 / π ^ 2 * φ ^ 2) := by positivity
  rw [e]
  nlinarith

theorem near_cube (hP0 : 0 < P.1) {ε : ℝ} {q : ℝ × ℝ} (h : Around P ε q) {φ : ℝ} (hφ : |φ| ≤ π) :
    0 < sourceDist P.1 P.2 q.1 q.2 φ ∧ ε ≤ sourceDist P.1 P.2 q.1 q.2 φ ∧ 1 / sourceDist P.1 P.2 q.1 q.2 φ ^ 3 ≤ cubic ε (P.1 / π) φ := by
  have n := near_dist hP0 h hφ
  have p : 0 < ε ^ 2 + (P.1 / π * φ) ^ 2 := by have := h.pos; positivity
  have s := Real.sqrt_pos.mpr p
  refine ⟨s.trans_le n, le_trans (Real.le_sqrt_of_sq_le (by nlinarith [sq_nonneg (P.1 / π * φ)])) n, ?_⟩
  exact one_div_le_one_div_of_le (pow_pos s 3) (pow_le_pow_left₀ s.le n 3)

/-- The integral around the filament, from the angle opposite to the point. -/
theorem shift_loop {f : ℝ → ℝ} (hf : ∀ φ, f (φ + 2 * π) = f φ) : ∫ φ in (0 : ℝ)..(2 * π), f φ = ∫ φ in (-π)..π, f φ := by
  have : Function.Periodic f (2 * π) := hf
  have h := this.intervalIntegral_add_eq 0 (-π)
  rw [zero_add, show -π + 2 * π = π by ring] at h
  exact h

theorem loop_bound {f g : ℝ → ℝ} (hf : ∀ φ, f (φ + 2 * π) = f φ) (hg : Continuous g) (h : ∀ φ, |φ| ≤ π → |f φ| ≤ g φ) :
    |mu0 / (4 * π) * ∫ φ in (0 : ℝ)..(2 * π), f φ| ≤ mu0 / (4 * π) * ∫ φ in (-π)..π, g φ := by
  have hmu := mu0_pos
  have hpi := pi_pos
  rw [shift_loop hf, abs_mul, abs_of_pos (by positivity)]
  refine mul_le_mul_of_nonneg_left ?_ (by positivity)
  have := intervalIntegral.norm_integral_le_of_norm_le (by linarith : -π ≤ π) (f := f) (g := g) (μ := volume)
    (Filter.Eventually.of_forall fun φ hφ => by rw [Real.norm_eq_abs]; exact h φ (abs_le.mpr ⟨hφ.1.le, hφ.2⟩)) (hg.intervalIntegrable _ _)
  rwa [Real.norm_eq_abs] at this

theorem dist_periodic (Rc Zc R Z φ : ℝ) : sourceDist Rc Zc R Z (φ + 2 * π) = sourceDist Rc Zc R Z φ := by
  simp only [sourceDist, cos_add_two_pi, sin_add_two_pi]

theorem near_Br (hP0 : 0 < P.1) : ∃ C : ℝ, 0 ≤ C ∧ ∀ ε q, Around P ε q → |biotSavartR P.1 P.2 q.1 q.2| ≤ C / ε := by
  have hmu := mu0_pos
  have hpi := pi_pos
  refine ⟨mu0 / (4 * π) * (2 * π), by positivity, fun ε q h => ?_⟩
  have hε := h.pos
  unfold biotSavartR
  refine (loop_bound (g := fun φ => P.1 * ε * cubic ε (P.1 / π) φ) (fun φ => by simp only [dist_periodic, cos_add_two_pi])
    (continuous_const.mul (cubic_cont hε)) fun φ hφ => ?_).trans ?_
  · obtain ⟨s, -, k⟩ := near_cube hP0 h hφ
    rw [abs_div, abs_mul, abs_mul, abs_of_pos hP0, abs_of_pos (pow_pos s 3), div_eq_mul_one_div]
    have := abs_cos_le_one φ
    have := h.Z
    have : P.1 * |cos φ| * |q.2 - P.2| ≤ P.1 * 1 * ε := by gcongr
    rw [mul_one] at this
    exact mul_le_mul this k (by positivity) (by positivity)
  · rw [intervalIntegral.integral_const_mul, mul_div_assoc]
    refine mul_le_mul_of_nonneg_left ?_ (by positivity)
    calc P.1 * ε * ∫ φ in (-π)..π, cubic ε (P.1 / π) φ ≤ P.1 * ε * (2 / (ε ^ 2 * (P.1 / π))) :=
          mul_le_mul_of_nonneg_left (cubic_integral hε (by positivity)) (by positivity)
      _ = 2 * π / ε := by field_simp

theorem near_Bz (hP0 : 0 < P.1) : ∃ C : ℝ, 0 ≤ C ∧ ∀ ε q, Around P ε q → |biotSavartZ P.1 P.2 q.1 q.2| ≤ C / ε := by
  have hmu := mu0_pos
  have hpi := pi_pos
  refine ⟨mu0 / (4 * π) * (3 * π), by positivity, fun ε q h => ?_⟩
  have hε := h.pos
  unfold biotSavartZ
  refine (loop_bound (g := fun φ => P.1 * ε * cubic ε (P.1 / π) φ + 1 / (2 * ε))
    (fun φ => by simp only [dist_periodic, cos_add_two_pi, sin_add_two_pi])
    ((continuous_const.mul (cubic_cont hε)).add continuous_const) fun φ hφ => ?_).trans ?_
  · obtain ⟨s, sε, k⟩ := near_cube hP0 h hφ
    have hsq : sourceDist P.1 P.2 q.1 q.2 φ ^ 2 = q.1 ^ 2 + P.1 ^ 2 + (q.2 - P.2) ^ 2 - 2 * q.1 * P.1 * cos φ := by rw [sourceDist_sq', sourceDist_sq]
    have hq0 : 0 < q.1 := by linarith [h.radius]
    set d := sourceDist P.1 P.2 q.1 q.2 φ with hd
    have e : (-(P.1 * sin φ)) * (-(P.1 * sin φ)) - P.1 * cos φ * (q.1 - P.1 * cos φ) = P.1 * (P.1 - q.1) + P.1 * (q.1 * (1 - cos φ)) := by
      linear_combination P.1 ^ 2 * sin_sq_add_cos_sq φ
    have n : 0 ≤ P.1 * (q.1 * (1 - cos φ)) := mul_nonneg hP0.le (mul_nonneg hq0.le (by linarith [cos_le_one φ]))
    have n2 : P.1 * (q.1 * (1 - cos φ)) ≤ d ^ 2 / 2 := by rw [hsq]; nlinarith [sq_nonneg (q.1 - P.1), sq_nonneg (q.2 - P.2)]
    rw [e, add_div]
    refine (abs_add_le _ _).trans (add_le_add ?_ ?_)
    · rw [abs_div, abs_mul, abs_of_pos hP0, abs_of_pos (pow_pos s 3), div_eq_mul_one_div, abs_sub_comm]
      exact mul_le_mul (mul_le_mul_of_nonneg_left h.R hP0.le) k (by positivity) (by positivity)
    · rw [abs_of_nonneg (by positivity)]
      calc P.1 * (q.1 * (1 - cos φ)) / d ^ 3 ≤ d ^ 2 / 2 / d ^ 3 := by gcongr
        _ = 1 / (2 * d) := by field_simp
        _ ≤ 1 / (2 * ε) := by gcongr
  · have i1 : IntervalIntegrable (fun φ => P.1 * ε * cubic ε (P.1 / π) φ) volume (-π) π := (continuous_const.mul (cubic_cont hε)).intervalIntegrable _ _
    rw [intervalIntegral.integral_add i1 (continuous_const.intervalIntegrable _ _),
      intervalIntegral.integral_const_mul, intervalIntegral.integral_const, mul_div_assoc]
    refine mul_le_mul_of_nonneg_left ?_ (by positivity)
    calc P.1 * ε * (∫ φ in (-π)..π, cubic ε (P.1 / π) φ) + (π - -π) • (1 / (2 * ε)) ≤ P.1 * ε * (2 / (ε ^ 2 * (P.1 / π))) + (π - -π) • (1 / (2 * ε)) :=
          add_le_add_left (mul_le_mul_of_nonneg_left (cubic_integral hε (by positivity)) (by positivity)) _
      _ = 3 * π / ε := by rw [smul_eq_mul]; field_simp; ring

theorem near_flux (hP0 : 0 < P.1) : ∃ C : ℝ, 0 ≤ C ∧ ∀ t q, 0 < t → Around P (t ^ 3) q → |filamentFlux q.1 q.2 P.1 P.2 / q.1| ≤ C / t ^ 2 := by
  have hmu := mu0_pos
  have hpi := pi_pos
  refine ⟨mu0 / (4 * π) * (2 * π * P.1 + 2 * π), by positivity, fun t q ht h => ?_⟩
  have hε := h.pos
  have hq0 : 0 < q.1 := by linarith [h.radius]
  rw [filamentFlux_comm, filamentFlux, mul_div_cancel_left₀ _ hq0.ne']
  refine (loop_bound (g := fun φ => P.1 / t ^ 2 + P.1 * t ^ 4 * cubic (t ^ 3) (P.1 / π) φ) (fun φ => by simp only [dist_periodic, cos_add_two_pi])
    (continuous_const.add (continuous_const.mul (cubic_cont hε))) fun φ hφ => ?_).trans ?_
  · obtain ⟨s, -, k⟩ := near_cube hP0 h hφ
    set d := sourceDist P.1 P.2 q.1 q.2 φ with hd
    have : |P.1 * cos φ / d| ≤ P.1 * (1 / d) := by
      rw [abs_div, abs_mul, abs_of_pos hP0, abs_of_pos s, div_eq_mul_one_div]
      have := abs_cos_le_one φ
      calc P.1 * |cos φ| * (1 / d) ≤ P.1 * 1 * (1 / d) := by gcongr
        _ = _ := by ring
    refine this.trans ?_
    have young : 1 / d ≤ 1 / t ^ 2 + t ^ 4 * (1 / d ^ 3) := by
      by_cases hc : t ^ 2 ≤ d
      · have : 1 / d ≤ 1 / t ^ 2 := one_div_le_one_div_of_le (by positivity) hc
        have : 0 ≤ t ^ 4 * (1 / d ^ 3) := by positivity
        linarith
      · push Not at hc
        have : 1 / d ≤ t ^ 4 * (1 / d ^ 3) := by
          rw [mul_one_div, div_le_div_iff₀ s (by positivity)]
          have : d ^ 2 ≤ t ^ 4 := by nlinarith
          nlinarith
        have : 0 ≤ 1 / t ^ 2 := by positivity
        linarith
    have k2 : t ^ 4 * (1 / d ^ 3) ≤ t ^ 4 * cubic (t ^ 3) (P.1 / π) φ := mul_le_mul_of_nonneg_left k (by positivity)
    calc P.1 * (1 / d) ≤ P.1 * (1 / t ^ 2 + t ^ 4 * cubic (t ^ 3) (P.1 / π) φ) := mul_le_mul_of_nonneg_left (by linarith) hP0.le
      _ = _ := by ring
  · have i1 : IntervalIntegrable (fun φ => P.1 * t ^ 4 * cubic (t ^ 3) (P.1 / π) φ) volume (-π) π := (continuous_const.mul (cubic_cont hε)).intervalIntegrable _ _
    rw [intervalIntegral.integral_add (continuous_const.intervalIntegrable _ _) i1,
      intervalIntegral.integral_const_mul, intervalIntegral.integral_const, mul_div_assoc]
    refine mul_le_mul_of_nonneg_left ?_ (by positivity)
    calc (π - -π) • (P.1 / t ^ 2) + P.1 * t ^ 4 * (∫ φ in (-π)..π, cubic (t ^ 3) (P.1 / π) φ)
        ≤ (π - -π) • (P.1 / t ^ 2) + P.1 * t ^ 4 * (2 / ((t ^ 3) ^ 2 * (P.1 / π))) :=
          add_le_add_right (mul_le_mul_of_nonneg_left (cubic_integral hε (by positivity)) (by positivity)) _
      _ = (2 * π * P.1 + 2 * π) / t ^ 2 := by rw [smul_eq_mul]; field_simp; ring

/-! ## The flow out of a small square -/

theorem flow_le {u v : ℝ → ℝ → ℝ} {a b c d M : ℝ} (hab : a ≤ b) (hcd : c ≤ d) (h1 : ∀ y ∈ Icc c d, |u a y| ≤ M) (h2 : ∀ y ∈ Icc c d, |u b y| ≤ M)
    (h3 : ∀ x ∈ Icc a b, |v x c| ≤ M) (h4 : ∀ x ∈ Icc a b, |v x d| ≤ M) : |flow u v a b c d| ≤ M * (2 * (d - c) + 2 * (b - a)) := by
  have y : ∀ x, (∀ y ∈ Icc c d, |u x y| ≤ M) → |∫ y in c..d, u x y| ≤ M * (d - c) := fun x h => by
    have := intervalIntegral.norm_integral_le_of_norm_le_const (a := c) (b := d) (C := M) (f := u x) fun y hy => by
      rw [uIoc_of_le hcd] at hy
      rw [Real.norm_eq_abs]
      exact h y ⟨hy.1.le, hy.2⟩
    rwa [Real.norm_eq_abs, abs_of_nonneg (sub_nonneg.mpr hcd)] at this
  have x : ∀ y, (∀ x ∈ Icc a b, |v x y| ≤ M) → |∫ x in a..b, v x y| ≤ M * (b - a) := fun y h => by
    have := intervalIntegral.norm_integral_le_of_norm_le_const (a := a) (b := b) (C := M) (f := fun x => v x y) fun x hx => by
      rw [uIoc_of_le hab] at hx
      rw [Real.norm_eq_abs]
      exact h x ⟨hx.1.le, hx.2⟩
    rwa [Real.norm_eq_abs, abs_of_nonneg (sub_nonneg.mpr hab)] at this
  have b1 := abs_le.mp (y a h1)
  have b2 := abs_le.mp (y b h2)
  have b3 := abs_le.mp (x c h3)
  have b4 := abs_le.mp (x d h4)
  rw [flow, abs_le]
  constructor <;> linarith [b1.1, b1.2, b2.1, b2.2, b3.1, b3.2, b4.1, b4.2]

theorem flow_sub {u v u' v' : ℝ → ℝ → ℝ} (hu : ContinuousOn (fun q : ℝ × ℝ => u q.1 q.2) (offPoint P))
    (hv : ContinuousOn (fun q : ℝ × ℝ => v q.1 q.2) (offPoint P)) (hu' : ContinuousOn (fun q : ℝ × ℝ => u' q.1 q.2) (offPoint P))
    (hv' : ContinuousOn (fun q : ℝ × ℝ => v' q.1 q.2) (offPoint P)) {a b c d k : ℝ} (ha : 0 < a) (h1 : a < P.1) (h2 : P.1 < b) (h3 : c < P.2) (h4 : P.2 < d) :
    flow (fun x y => u x y - k * u' x y) (fun x y => v x y - k * v' x y) a b c d = flow u v a b c d - k * flow u' v' a b c d := by
  have hb := (ha.trans h1).trans h2
  have hab := (h1.trans h2).le
  have hcd := (h3.trans h4).le
  have y : ∀ x, 0 < x → x ≠ P.1 → ∫ y in c..d, (u x y - k * u' x y) = (∫ y in c..d, u x y) - k * ∫ y in c..d, u' x y := fun x h0 hx => by
    rw [intervalIntegral.integral_sub (side_y hu h0 hcd (Or.inl hx)) ((side_y hu' h0 hcd (Or.inl hx)).const_mul k), intervalIntegral.integral_const_mul]
  have x : ∀ y, y ≠ P.2 → ∫ x in a..b, (v x y - k * v' x y) = (∫ x in a..b, v x y) - k * ∫ x in a..b, v' x y := fun y hy => by
    rw [intervalIntegral.integral_sub (side_x hv ha hab (Or.inl hy)) ((side_x hv' ha hab (Or.inl hy)).const_mul k), intervalIntegral.integral_const_mul]
  simp only [flow]
  rw [y a ha h1.ne, y b hb h2.ne', x c h3.ne, x d h4.ne']
  ring

/-- The first component of Green's vector. -/
noncomputable def gu (P : ℝ × ℝ) (F FR : ℝ → ℝ → ℝ) (x y : ℝ) : ℝ := filamentFlux x y P.1 P.2 * FR x y / x - biotSavartZ P.1 P.2 x y * F x y

/-- Its second component. -/
noncomputable def gv (P : ℝ × ℝ) (F FZ : ℝ → ℝ → ℝ) (x y : ℝ) : ℝ := filamentFlux x y P.1 P.2 * FZ x y / x + biotSavartR P.1 P.2 x y * F x y

/-- The flux at `P` of the elliptic operator of `F`. -/
noncomputable def density (P : ℝ × ℝ) (FR FRR FZZ : ℝ → ℝ → ℝ) (x y : ℝ) : ℝ := filamentFlux x y P.1 P.2 * ((FRR x y - FR x y / x + FZZ x y) / x)

variable {F FR FRR FZ FZZ : ℝ → ℝ → ℝ}

theorem half_off : offPoint P ⊆ {q : ℝ × ℝ | 0 < q.1} := fun _ hq => hq.1

theorem half_ne : ∀ q ∈ {q : ℝ × ℝ | 0 < q.1}, q.1 ≠ 0 := fun _ hq => ne_of_gt hq

theorem gu_cont (hP0 : 0 < P.1) (h : Regular F FR FRR FZ FZZ) : ContinuousOn (fun q : ℝ × ℝ => gu P F FR q.1 q.2) (offPoint P) :=
  (((off_flux hP0).mul (h.c1.mono half_off)).div continuousOn_fst fun q hq => half_ne q hq.1).sub ((off_Bz hP0).mul (h.c0.mono half_off))

theorem gv_cont (hP0 : 0 < P.1) (h : Regular F FR FRR FZ FZZ) : ContinuousOn (fun q : ℝ × ℝ => gv P F FZ q.1 q.2) (offPoint P) :=
  (((off_flux hP0).mul (h.c3.mono half_off)).div continuousOn_fst fun q hq => half_ne q hq.1).add ((off_Br hP0).mul (h.c0.mono half_off))

theorem green_regular (hP0 : 0 < P.1) (h : Regular F FR FRR FZ FZZ) {a b c d : ℝ} (ha : 0 < a) (hab : a ≤ b) (hcd : c ≤ d)
    (hP : ¬ (P.1 ∈ Icc a b ∧ P.2 ∈ Icc c d)) : ∫ x in a..b, ∫ y in c..d, density P FR FRR FZZ x y = flow (gu P F FR) (gv P F FZ) a b c d := by
  have s : (⟨a, b, c, d, hab, hcd⟩ : Rectangle).set ⊆ {q : ℝ × ℝ | 0 < q.1} := fun q hq => lt_of_lt_of_le ha hq.1.1
  exact green_full (D := ⟨a, b, c, d, hab, hcd⟩) (P := P) ha hP0 (fun m => hP m) F FR FRR FZ FZZ (h.c0.mono s) (h.c1.mono s) (h.c2.mono s) (h.c3.mono s)
    (h.c4.mono s) (fun q hq => h.d1 q.1 q.2 (s hq)) (fun q hq => h.d2 q.1 q.2 (s hq)) (fun q hq => h.d3 q.1 q.2 (s hq)) (fun q hq => h.d4 q.1 q.2 (s hq))

theorem density_cont (hP0 : 0 < P.1) (h : Regular F FR FRR FZ FZZ) {r : ℝ} (hr : 0 < r)
    (hz : ∀ x y, |x - P.1| ≤ r → |y - P.2| ≤ r → FRR x y - FR x y / x + FZZ x y = 0) :
    ContinuousOn (fun q : ℝ × ℝ => density P FR FRR FZZ q.1 q.2) {q | 0 < q.1} := by
  have c : ContinuousOn (fun q : ℝ × ℝ => (FRR q.1 q.2 - FR q.1 q.2 / q.1 + FZZ q.1 q.2) / q.1) {q | 0 < q.1} :=
    ((h.c2.sub (h.c1.div continuousOn_fst half_ne)).add h.c4).div continuousOn_fst half_ne
  have o : ContinuousOn (fun q : ℝ × ℝ => density P FR FRR FZZ q.1 q.2) (offPoint P) := (off_flux hP0).mul (c.mono half_off)
  have hopen : IsOpen (offPoint P) := by
    have : offPoint P = {q : ℝ × ℝ | 0 < q.1} ∩ {P}ᶜ := by ext q; rfl
    rw [this]
    exact (isOpen_lt continuous_const continuous_fst).inter isOpen_compl_singleton
  intro q hq
  by_cases e : q = P
  · refine ContinuousAt.continuousWithinAt ?_
    have ev : (fun q : ℝ × ℝ => density P FR FRR FZZ q.1 q.2) =ᶠ[nhds q] fun _ => 0 := by
      have m : Icc (P.1 - r) (P.1 + r) ×ˢ Icc (P.2 - r) (P.2 + r) ∈ nhds q := by
        rw [e]
        exact prod_mem_nhds (Icc_mem_nhds (by linarith) (by linarith)) (Icc_mem_nhds (by linarith) (by linarith))
      filter_upwards [m] with p hp
      simp only [density]
      rw [hz p.1 p.2 (abs_le.mpr ⟨by linarith [hp.1.1], by linarith [hp.1.2]⟩) (abs_le.mpr ⟨by linarith [hp.2.1], by linarith [hp.2.2]⟩)]
      simp
    exact continuousAt_const.congr ev.symm
  · exact (o.continuousAt (hopen.mem_nhds ⟨hq, e⟩)).continuousWithinAt

theorem square_bound (hP0 : 0 < P.1) (h : Regular F FR FRR FZ FZZ) {ε N : ℝ} (hε0 : 0 < ε) (small : ε ≤ P.1 / 2)
    (hu : ∀ q : ℝ × ℝ, Around P ε q → |gu P F FR q.1 q.2 - F P.1 P.2 * -biotSavartZ P.1 P.2 q.1 q.2| ≤ N)
    (hv : ∀ q : ℝ × ℝ, Around P ε q → |gv P F FZ q.1 q.2 - F P.1 P.2 * biotSavartR P.1 P.2 q.1 q.2| ≤ N) :
    |flow (gu P F FR) (gv P F FZ) (P.1 - ε) (P.1 + ε) (P.2 - ε) (P.2 + ε) - mu0 * F P.1 P.2| ≤ N * (8 * ε) := by
  have ha : 0 < P.1 - ε := by linarith
  have amp := ampere hP0 ha (by linarith : P.1 - ε < P.1) (by linarith : P.1 < P.1 + ε) (by linarith : P.2 - ε < P.2) (by linarith : P.2 < P.2 + ε)
  have sub := flow_sub (k := F P.1 P.2) (u' := fun x y => -biotSavartZ P.1 P.2 x y) (v' := fun x y => biotSavartR P.1 P.2 x y) (gu_cont hP0 h) (gv_cont hP0 h) (off_Bz hP0).neg (off_Br hP0) ha (by linarith : P.1 - ε < P.1)
    (by linarith : P.1 < P.1 + ε) (by linarith : P.2 - ε < P.2) (by linarith : P.2 < P.2 + ε)
  have e1 : flow (fun x y => -biotSavartZ P.1 P.2 x y) (fun x y => biotSavartR P.1 P.2 x y) (P.1 - ε) (P.1 + ε) (P.2 - ε) (P.2 + ε) = mu0 := amp
  rw [e1, mul_comm (F P.1 P.2) mu0] at sub
  rw [← sub]
  have ay : ∀ x : ℝ, |x - P.1| = ε → ∀ y ∈ Icc (P.2 - ε) (P.2 + ε), |gu P F FR x y - F P.1 P.2 * -biotSavartZ P.1 P.2 x y| ≤ N := fun x hs y hy =>
    hu (x, y) ⟨hε0, small, hs.le, abs_le.mpr ⟨by linarith [hy.1], by linarith [hy.2]⟩, by
      have : (x - P.1) ^ 2 = ε ^ 2 := by rw [← sq_abs, hs]
      change ε ^ 2 ≤ (x - P.1) ^ 2 + (y - P.2) ^ 2
      nlinarith [sq_nonneg (y - P.2)]⟩
  have ax : ∀ y : ℝ, |y - P.2| = ε → ∀ x ∈ Icc (P.1 - ε) (P.1 + ε), |gv P F FZ x y - F P.1 P.2 * biotSavartR P.1 P.2 x y| ≤ N := fun y hs x hx =>
    hv (x, y) ⟨hε0, small, abs_le.mpr ⟨by linarith [hx.1], by linarith [hx.2]⟩, hs.le, by
      have : (y - P.2) ^ 2 = ε ^ 2 := by rw [← sq_abs, hs]
      change ε ^ 2 ≤ (x - P.1) ^ 2 + (y - P.2) ^ 2
      nlinarith [sq_nonneg (x - P.1)]⟩
  have s1 : ∀ x : ℝ, |x + ε - x| = ε := fun x => by rw [add_sub_cancel_left, abs_of_pos hε0]
  have s2 : ∀ x : ℝ, |x - ε - x| = ε := fun x => by rw [sub_sub_cancel_left, abs_neg, abs_of_pos hε0]
  have l := flow_le (u := fun x y => gu P F FR x y - F P.1 P.2 * -biotSavartZ P.1 P.2 x y) (v := fun x y => gv P F FZ x y - F P.1 P.2 * biotSavartR P.1 P.2 x y)
    (M := N) (by linarith : P.1 - ε ≤ P.1 + ε) (by linarith : P.2 - ε ≤ P.2 + ε) (ay _ (s2 _)) (ay _ (s1 _)) (ax _ (s2 _)) (ax _ (s1 _))
  exact l.trans (le_of_eq (by ring))

/-- The flow out of a small square around the point. -/
theorem flow_square (hP0 : 0 < P.1) (h : Regular F FR FRR FZ FZZ) {η : ℝ} (hη : 0 < η) :
    ∃ t0 : ℝ, 0 < t0 ∧ ∀ t, 0 < t → t ≤ t0 →
      |flow (gu P F FR) (gv P F FZ) (P.1 - t ^ 3) (P.1 + t ^ 3) (P.2 - t ^ 3) (P.2 + t ^ 3) - mu0 * F P.1 P.2| ≤ η := by
  obtain ⟨C1, hC1, b1⟩ := near_Br hP0
  obtain ⟨C2, hC2, b2⟩ := near_Bz hP0
  obtain ⟨C3, hC3, b3⟩ := near_flux hP0
  have hP' : P ∈ {q : ℝ × ℝ | 0 < q.1} := hP0
  have hn : {q : ℝ × ℝ | 0 < q.1} ∈ nhds P := (isOpen_lt continuous_const continuous_fst).mem_nhds hP0
  -- the values of the function near the point
  set δ := η / (16 * (C1 + C2 + 1)) with hδ
  have hδ0 : 0 < δ := by positivity
  set M := max |FR P.1 P.2| |FZ P.1 P.2| + 1 with hM
  have hM0 : 0 ≤ M := by have := le_max_left |FR P.1 P.2| |FZ P.1 P.2|; have := abs_nonneg (FR P.1 P.2); linarith
  have n0 := Metric.continuousAt_iff.mp (h.c0.continuousAt hn) δ hδ0
  have n1 := Metric.continuousAt_iff.mp (h.c1.continuousAt hn) 1 one_pos
  have n3 := Metric.continuousAt_iff.mp (h.c3.continuousAt hn) 1 one_pos
  obtain ⟨r0, hr0, n0⟩ := n0
  obtain ⟨r1, hr1, n1⟩ := n1
  obtain ⟨r3, hr3, n3⟩ := n3
  set t0 := min 1 (min (P.1 / 2) (min (r0 / 2) (min (r1 / 2) (min (r3 / 2) (η / (16 * (C3 * M + 1))))))) with ht0
  have ht0p : 0 < t0 := by
    have : 0 < C3 * M + 1 := by positivity
    simp only [ht0, lt_min_iff]
    refine ⟨one_pos, by positivity, by positivity, by positivity, by positivity, by positivity⟩
  refine ⟨t0, ht0p, fun t ht htt => ?_⟩
  simp only [ht0, le_min_iff] at htt
  obtain ⟨u1, u2, u3, u4, u5, u6⟩ := htt
  have ht3 : t ^ 3 ≤ t := by
    have := pow_le_pow_of_le_one ht.le u1 (show 1 ≤ 3 by norm_num)
    rwa [pow_one] at this
  set ε := t ^ 3 with hε
  have hε0 : 0 < ε := by positivity
  have near : ∀ q : ℝ × ℝ, Around P ε q → dist q P < r0 ∧ dist q P < r1 ∧ dist q P < r3 := by
    intro q hq
    have hd : dist q P ≤ ε := by rw [Prod.dist_eq, Real.dist_eq, Real.dist_eq]; exact max_le hq.R hq.Z
    exact ⟨by linarith, by linarith, by linarith⟩
  have bound : ∀ q : ℝ × ℝ, Around P ε q → ∀ g B : ℝ, |g| ≤ M → |B| ≤ (C1 + C2) / ε →
      |filamentFlux q.1 q.2 P.1 P.2 / q.1 * g| + |B * (F q.1 q.2 - F P.1 P.2)| ≤ C3 / t ^ 2 * M + (C1 + C2) / ε * δ := by
    intro q hq g B hg hB
    have f := n0 (near q hq).1
    rw [Real.dist_eq] at f
    rw [abs_mul, abs_mul]
    exact add_le_add (mul_le_mul (b3 t q ht hq) hg (abs_nonneg _) (by positivity)) (mul_le_mul hB f.le (abs_nonneg _) (by positivity))
  have hFR : ∀ q : ℝ × ℝ, Around P ε q → |FR q.1 q.2| ≤ M := by
    intro q hq
    have f := n1 (near q hq).2.1
    rw [Real.dist_eq] at f
    have := le_max_left |FR P.1 P.2| |FZ P.1 P.2|
    have := abs_sub_abs_le_abs_sub (FR q.1 q.2) (FR P.1 P.2)
    linarith
  have hFZ : ∀ q : ℝ × ℝ, Around P ε q → |FZ q.1 q.2| ≤ M := by
    intro q hq
    have f := n3 (near q hq).2.2
    rw [Real.dist_eq] at f
    have := le_max_right |FR P.1 P.2| |FZ P.1 P.2|
    have := abs_sub_abs_le_abs_sub (FZ q.1 q.2) (FZ P.1 P.2)
    linarith
  have hBz : ∀ q : ℝ × ℝ, Around P ε q → |biotSavartZ P.1 P.2 q.1 q.2| ≤ (C1 + C2) / ε := fun q hq =>
    (b2 ε q hq).trans (div_le_div_of_nonneg_right (by linarith) hε0.le)
  have hBr : ∀ q : ℝ × ℝ, Around P ε q → |biotSavartR P.1 P.2 q.1 q.2| ≤ (C1 + C2) / ε := fun q hq =>
    (b1 ε q hq).trans (div_le_div_of_nonneg_right (by linarith) hε0.le)
  have hu : ∀ q : ℝ × ℝ, Around P ε q → |gu P F FR q.1 q.2 - F P.1 P.2 * -biotSavartZ P.1 P.2 q.1 q.2| ≤ C3 / t ^ 2 * M + (C1 + C2) / ε * δ := by
    intro q hq
    refine le_trans ?_ (bound q hq (FR q.1 q.2) (-biotSavartZ P.1 P.2 q.1 q.2) (hFR q hq) (by rw [abs_neg]; exact hBz q hq))
    refine le_trans (le_of_eq ?_) (abs_add_le _ _)
    congr 1
    rw [gu]
    ring
  have hv : ∀ q : ℝ × ℝ, Around P ε q → |gv P F FZ q.1 q.2 - F P.1 P.2 * biotSavartR P.1 P.2 q.1 q.2| ≤ C3 / t ^ 2 * M + (C1 + C2) / ε * δ := by
    intro q hq
    refine le_trans ?_ (bound q hq (FZ q.1 q.2) (biotSavartR P.1 P.2 q.1 q.2) (hFZ q hq) (hBr q hq))
    refine le_trans (le_of_eq ?_) (abs_add_le _ _)
    congr 1
    rw [gv]
    ring
  refine (square_bound hP0 h hε0 (ht3.trans u2) hu hv).trans ?_
  have e2 : (C3 / t ^ 2 * M + (C1 + C2) / ε * δ) * (8 * ε) = 8 * (C3 * M * t) + 8 * ((C1 + C2) * δ) := by
    rw [hε]
    field_simp
  rw [e2]
  have e3 : (C1 + C2) * δ ≤ η / 16 := by
    rw [hδ, mul_div_assoc', div_le_div_iff₀ (by positivity) (by norm_num)]
    nlinarith
  have e4 : C3 * M * t ≤ η / 16 := by
    have p : 0 < 16 * (C3 * M + 1) := by positivity
    have : t * (16 * (C3 * M + 1)) ≤ η := by rwa [le_div_iff₀ p] at u6
    nlinarith
  linarith

/-- **The representation of a flux function.** At a point with no current nearby, `mu0 F` is the flow of Green's vector out of a rectangle less the
integral of the elliptic operator of `F` over the rectangle. -/
theorem representation (hP0 : 0 < P.1) (h : Regular F FR FRR FZ FZZ) {r : ℝ} (hr : 0 < r)
    (hz : ∀ x y, |x - P.1| ≤ r → |y - P.2| ≤ r → FRR x y - FR x y / x + FZZ x y = 0) {a b c d : ℝ} (ha : 0 < a) (h1 : a < P.1) (h2 : P.1 < b)
    (h3 : c < P.2) (h4 : P.2 < d) :
    mu0 * F P.1 P.2 = flow (gu P F FR) (gv P F FZ) a b c d - ∫ x in a..b, ∫ y in c..d, density P FR FRR FZZ x y := by
  have key : ∀ η > 0, |flow (gu P F FR) (gv P F FZ) a b c d - (∫ x in a..b, ∫ y in c..d, density P FR FRR FZZ x y) - mu0 * F P.1 P.2| ≤ η := by
    intro η hη
    obtain ⟨t0, ht0, hs⟩ := flow_square hP0 h hη
    obtain ⟨t, ht, htt, hsm⟩ : ∃ t : ℝ, 0 < t ∧ t ≤ t0 ∧ t ^ 3 ≤ min r (min (P.1 - a) (min (b - P.1) (min (P.2 - c) (d - P.2)))) := by
      have hm : 0 < min r (min (P.1 - a) (min (b - P.1) (min (P.2 - c) (d - P.2)))) := by
        simp only [lt_min_iff]
        exact ⟨hr, by linarith, by linarith, by linarith, by linarith⟩
      set m := min r (min (P.1 - a) (min (b - P.1) (min (P.2 - c) (d - P.2)))) with hmdef
      refine ⟨min t0 (min 1 m), lt_min ht0 (lt_min one_pos hm), min_le_left _ _, ?_⟩
      have p : 0 < min t0 (min 1 m) := lt_min ht0 (lt_min one_pos hm)
      have l1 : min t0 (min 1 m) ≤ 1 := (min_le_right _ _).trans (min_le_left _ _)
      have l2 : min t0 (min 1 m) ≤ m := (min_le_right _ _).trans (min_le_right _ _)
      have := pow_le_pow_of_le_one p.le l1 (show 1 ≤ 3 by norm_num)
      rw [pow_one] at this
      exact this.trans l2
    simp only [le_min_iff] at hsm
    obtain ⟨v0, v1, v2, v3, v4⟩ := hsm
    have sq := hs t ht htt
    set ε := t ^ 3 with hε
    have hε0 : 0 < ε := by positivity
    have ha' : 0 < P.1 - ε := by linarith
    have fr := flow_frame (gu_cont hP0 h) (gv_cont hP0 h) (a' := a) (a := P.1 - ε) (b := P.1 + ε) (b' := b) (c' := c) (c := P.2 - ε) (d := P.2 + ε) (d' := d) ha
      (by linarith) (by linarith) (by linarith) (by linarith) (by linarith) (by linarith) (by linarith) (by linarith)
    have ir := integral_frame (density_cont hP0 h hr hz) (a' := a) (a := P.1 - ε) (b := P.1 + ε) (b' := b) (c' := c) (c := P.2 - ε) (d := P.2 + ε) (d' := d)
      ha (by linarith) (by linarith) (by linarith) (by linarith) (by linarith) (by linarith)
    have g1 := green_regular hP0 h (a := a) (b := P.1 - ε) (c := c) (d := d) ha (by linarith) (by linarith) fun m => by linarith [m.1.2]
    have g2 := green_regular hP0 h (a := P.1 + ε) (b := b) (c := c) (d := d) (by linarith) (by linarith) (by linarith) fun m => by linarith [m.1.1]
    have g3 := green_regular hP0 h (a := P.1 - ε) (b := P.1 + ε) (c := c) (d := P.2 - ε) ha' (by linarith) (by linarith) fun m => by linarith [m.2.2]
    have g4 := green_regular hP0 h (a := P.1 - ε) (b := P.1 + ε) (c := P.2 + ε) (d := d) ha' (by linarith) (by linarith) fun m => by linarith [m.2.1]
    have g5 : ∫ x in (P.1 - ε)..(P.1 + ε), ∫ y in (P.2 - ε)..(P.2 + ε), density P FR FRR FZZ x y = 0 :=
      integral_zero_of (by linarith) (by linarith) fun x hx y hy => by
        rw [density, hz x y (abs_le.mpr ⟨by linarith [hx.1], by linarith [hx.2]⟩) (abs_le.mpr ⟨by linarith [hy.1], by linarith [hy.2]⟩)]
        simp
    rw [g1, g2, g3, g4, g5] at ir
    rw [ir, fr]
    refine le_trans (le_of_eq ?_) sq
    congr 1
    ring
  have := le_of_forall_pos_le_add (b := 0) fun η hη => (key η hη).trans_eq (zero_add η).symm
  exact (sub_eq_zero.mp (abs_eq_zero.mp (le_antisymm this (abs_nonneg _)))).symm

/-! ## Large rectangles -/

/-- The flux of a filament is at most `mu0 R Rc / (2 D)`. -/
theorem flux_far {Rc Zc R Z D : ℝ} (hR : 0 < R) (hRc : 0 < Rc) (hD0 : 0 < D) (hD : D ^ 2 ≤ (R - Rc) ^ 2 + (Z - Zc) ^ 2) :
    |filamentFlux R Z Rc Zc / R| ≤ mu0 / 2 * (Rc / D) := by
  rw [filamentFlux_comm, filamentFlux, mul_div_cancel_left₀ _ hR.ne']
  refine loop_le fun φ => ?_
  have hsd := sourceDist_pos hR hRc (apart hD0 hD) φ
  have hge := sourceDist_ge hR hRc hD φ
  rw [abs_div, abs_mul, abs_of_pos hRc, abs_of_pos hsd]
  have hc := abs_cos_le_one φ
  calc Rc * |cos φ| / sourceDist Rc Zc R Z φ ≤ Rc * 1 / D := by gcongr
    _ = Rc / D := by rw [mul_one]

theorem gu_le {R Z D A B : ℝ} (hP0 : 0 < P.1) (hR : 0 < R) (hD0 : 0 < D) (hD : D ^ 2 ≤ (R - P.1) ^ 2 + (Z - P.2) ^ 2) (hA : |F R Z| ≤ A)
    (hB : |FR R Z| ≤ B) : |gu P F FR R Z| ≤ mu0 / 2 * (P.1 / D) * B + mu0 / 2 * (P.1 / D ^ 2) * A := by
  have hmu := mu0_pos
  have e : gu P F FR R Z = filamentFlux R Z P.1 P.2 / R * FR R Z + -(biotSavartZ P.1 P.2 R Z * F R Z) := by rw [gu]; ring
  rw [e]
  refine (abs_add_le _ _).trans ?_
  rw [abs_neg, abs_mul, abs_mul]
  exact add_le_add (mul_le_mul (flux_far hR hP0 hD0 hD) hB (abs_nonneg _) (by positivity))
    (mul_le_mul (biotSavartZ_le hR hP0 hD0 hD) hA (abs_nonneg _) (by positivity))

theorem gv_le {R Z D A B : ℝ} (hP0 : 0 < P.1) (hR : 0 < R) (hD0 : 0 < D) (hD : D ^ 2 ≤ (R - P.1) ^ 2 + (Z - P.2) ^ 2) (hA : |F R Z| ≤ A)
    (hB : |FZ R Z| ≤ B) : |gv P F FZ R Z| ≤ mu0 / 2 * (P.1 / D) * B + mu0 / 2 * (P.1 / D ^ 2) * A := by
  have hmu := mu0_pos
  have e : gv P F FZ R Z = filamentFlux R Z P.1 P.2 / R * FZ R Z + biotSavartR P.1 P.2 R Z * F R Z := by rw [gv]; ring
  rw [e]
  refine (abs_add_le _ _).trans ?_
  rw [abs_mul, abs_mul]
  exact add_le_add (mul_le_mul (flux_far hR hP0 hD0 hD) hB (abs_nonneg _) (by positivity))
    (mul_le_mul (biotSavartR_le hR hP0 hD0 hD) hA (abs_nonneg _) (by positivity))

/-- The flow out of large rectangles tends to zero. -/
theorem flow_far (hP0 : 0 < P.1) (h : Isolated F FR FZ) {η : ℝ} (hη : 0 < η) (L1 a1 : ℝ) (ha1 : 0 < a1) :
    ∃ L a : ℝ, L1 ≤ L ∧ 0 < a ∧ a ≤ a1 ∧ |flow (gu P F FR) (gv P F FZ) a L (P.2 - L) (P.2 + L)| ≤ η := by
  have hmu := mu0_pos
  set κ := η / (100 * mu0 * (P.1 + 1)) with hκ
  have hκ0 : 0 < κ := by positivity
  obtain ⟨L2, far⟩ := h.far κ hκ0
  set L := max L1 (max (L2 + |P.2|) (max (2 * P.1) (|P.2| + 1))) with hL
  have l1 : L1 ≤ L := le_max_left _ _
  have l2 : L2 + |P.2| ≤ L := (le_max_left _ _).trans (le_max_right _ _)
  have l3 : 2 * P.1 ≤ L := (le_max_left _ _).trans ((le_max_right _ _).trans (le_max_right _ _))
  have l4 : |P.2| + 1 ≤ L := (le_max_right _ _).trans ((le_max_right _ _).trans (le_max_right _ _))
  clear_value L
  have hPa := abs_nonneg (P.2)
  have hL0 : 0 < L := by linarith
  set ν := min (η / (100 * mu0 * L)) (η * P.1 / (100 * mu0 * L)) with hν
  have hν0 : 0 < ν := lt_min (by positivity) (by positivity)
  obtain ⟨δ, hδ, ax⟩ := h.axis (2 * L) ν hν0
  set a := min a1 (min (δ / 2) (P.1 / 2)) with ha
  have ha0 : 0 < a := lt_min ha1 (lt_min (by positivity) (by positivity))
  have aa : a ≤ a1 := min_le_left _ _
  have aδ : a ≤ δ / 2 := (min_le_right _ _).trans (min_le_left _ _)
  have aP : a ≤ P.1 / 2 := (min_le_right _ _).trans (min_le_right _ _)
  clear_value a
  refine ⟨L, a, l1, ha0, aa, ?_⟩
  have hab : a ≤ L := by linarith
  have hcd : P.2 - L ≤ P.2 + L := by linarith
  have hy : ∀ y ∈ Icc (P.2 - L) (P.2 + L), |y| ≤ 2 * L := fun y hy => by
    have := abs_le.mp (show |P.2| ≤ L by linarith)
    exact abs_le.mpr ⟨by linarith [hy.1, this.1], by linarith [hy.2, this.2]⟩
  -- the side near the axis
  have left : ∀ y ∈ Icc (P.2 - L) (P.2 + L), |gu P F FR a y| ≤ η / (20 * L) := by
    intro y hy'
    obtain ⟨f, g⟩ := ax a y ha0 (by linarith) (hy y hy')
    have b := gu_le (F := F) (FR := FR) hP0 ha0 (D := P.1 / 2) (by positivity) (by nlinarith [sq_nonneg (y - P.2)]) f g
    refine b.trans ?_
    have e : mu0 / 2 * (P.1 / (P.1 / 2)) * ν + mu0 / 2 * (P.1 / (P.1 / 2) ^ 2) * ν = mu0 * ν + 2 * mu0 / P.1 * ν := by field_simp
    rw [e]
    have n1 : mu0 * ν ≤ mu0 * (η / (100 * mu0 * L)) := mul_le_mul_of_nonneg_left (min_le_left _ _) hmu.le
    have n2 : 2 * mu0 / P.1 * ν ≤ 2 * mu0 / P.1 * (η * P.1 / (100 * mu0 * L)) := mul_le_mul_of_nonneg_left (min_le_right _ _) (by positivity)
    have e1 : mu0 * (η / (100 * mu0 * L)) = η / (100 * L) := by field_simp
    have e2 : 2 * mu0 / P.1 * (η * P.1 / (100 * mu0 * L)) = 2 * (η / (100 * L)) := by field_simp
    have e3 : η / (20 * L) = 5 * (η / (100 * L)) := by field_simp; norm_num
    have : 0 ≤ η / (100 * L) := by positivity
    rw [e1] at n1
    rw [e2] at n2
    rw [e3]
    linarith
  -- the other sides
  have other : ∀ D R Z : ℝ, L / 2 ≤ D → mu0 / 2 * (P.1 / D) * κ + mu0 / 2 * (P.1 / D ^ 2) * (κ * (2 * L)) ≤ η / (20 * L) := by
    intro D _ _ hD
    have hD0 : 0 < D := by linarith
    have m1 : P.1 / D ≤ P.1 / (L / 2) := div_le_div_of_nonneg_left hP0.le (by positivity) hD
    have m2 : P.1 / D ^ 2 ≤ P.1 / (L / 2) ^ 2 := div_le_div_of_nonneg_left hP0.le (by positivity) (pow_le_pow_left₀ (by positivity) hD 2)
    calc mu0 / 2 * (P.1 / D) * κ + mu0 / 2 * (P.1 / D ^ 2) * (κ * (2 * L))
        ≤ mu0 / 2 * (P.1 / (L / 2)) * κ + mu0 / 2 * (P.1 / (L / 2) ^ 2) * (κ * (2 * L)) := by gcongr
      _ = 5 * mu0 * P.1 * κ / L := by field_simp; ring
      _ ≤ η / (20 * L) := by
        rw [hκ, div_le_div_iff₀ hL0 (by positivity)]
        rw [mul_div_assoc', div_mul_eq_mul_div, div_le_iff₀ (by positivity)]
        nlinarith [mul_pos (mul_pos hmu hη) hL0, mul_pos (mul_pos (mul_pos hmu hη) hL0) hP0]
  have size : ∀ R Z : ℝ, 0 < R → R ≤ L → |Z| ≤ 2 * L → L - |P.2| ≤ max R |Z| →
      |F R Z| ≤ κ * (2 * L) ∧ |FR R Z| ≤ κ ∧ |FZ R Z| ≤ κ := by
    intro R Z h0 h1 h2 h3
    obtain ⟨f, g⟩ := far R Z h0 (by linarith)
    exact ⟨f.trans (mul_le_mul_of_nonneg_left (max_le (by linarith) h2) hκ0.le), g⟩
  have right : ∀ y ∈ Icc (P.2 - L) (P.2 + L), |gu P F FR L y| ≤ η / (20 * L) := by
    intro y hy'
    obtain ⟨f, g, -⟩ := size L y hL0 le_rfl (hy y hy') (le_trans (by linarith) (le_max_left _ _))
    exact (gu_le hP0 hL0 (D := L / 2) (by positivity) (by nlinarith [sq_nonneg (y - P.2)]) f g).trans (other _ 0 0 le_rfl)
  have ends : ∀ s : ℝ, |s| = L → ∀ x ∈ Icc a L, |gv P F FZ x (P.2 + s)| ≤ η / (20 * L) := by
    intro s hs x hx
    have hx0 := ha0.trans_le hx.1
    have b1 : |P.2 + s| ≤ 2 * L := (abs_add_le _ _).trans (by rw [hs]; linarith)
    have b2 : L - |P.2| ≤ max x |P.2 + s| := by
      refine le_trans ?_ (le_max_right _ _)
      have := abs_sub_abs_le_abs_sub s (-P.2)
      rw [hs, abs_neg, sub_neg_eq_add, add_comm s] at this
      exact this
    obtain ⟨f, -, g⟩ := size x (P.2 + s) hx0 hx.2 b1 b2
    have hs2 : s ^ 2 = L ^ 2 := by rw [← sq_abs, hs]
    exact (gv_le hP0 hx0 (D := L) hL0 (by rw [add_sub_cancel_left, hs2]; nlinarith [sq_nonneg (x - P.1)]) f g).trans (other _ 0 0 (by linarith))
  have top := ends L (abs_of_pos hL0)
  have bottom := ends (-L) (by rw [abs_neg, abs_of_pos hL0])
  rw [← sub_eq_add_neg] at bottom
  refine (flow_le hab hcd left right bottom top).trans ?_
  rw [div_mul_eq_mul_div, div_le_iff₀ (by positivity)]
  nlinarith

/-- **The flux of an isolated current.** A flux function with no flux on the axis and no field at infinity is, where no current is nearby, the sum of
the fluxes of its current filaments. -/
theorem isolated_flux (D : Rectangle) (ha : 0 < D.a) (hP0 : 0 < P.1) (h : Regular F FR FRR FZ FZZ) (hi : Isolated F FR FZ) (J : ℝ → ℝ → ℝ)
    (hgs : ∀ R Z, 0 < R → FRR R Z - FR R Z / R + FZZ R Z = -mu0 * R * J R Z)
    (hJ : ∀ R Z, 0 < R → J R Z ≠ 0 → R ∈ Ioo D.a D.b ∧ Z ∈ Ioo D.c D.d) {r : ℝ} (hr : 0 < r)
    (hz : ∀ R Z, 0 < R → |R - P.1| ≤ r → |Z - P.2| ≤ r → J R Z = 0) :
    F P.1 P.2 = D.integral fun q => filamentFlux q.1 q.2 P.1 P.2 * J q.1 q.2 := by
  have hmu := mu0_pos
  set r' := min r (P.1 / 2) with hr'
  have hr0 : 0 < r' := lt_min hr (by positivity)
  have hz' : ∀ x y, |x - P.1| ≤ r' → |y - P.2| ≤ r' → FRR x y - FR x y / x + FZZ x y = 0 := by
    intro x y hx hy
    have hx0 : 0 < x := by linarith [(abs_le.mp hx).1, min_le_right r (P.1 / 2)]
    rw [hgs x y hx0, hz x y hx0 (hx.trans (min_le_left _ _)) (hy.trans (min_le_left _ _)), mul_zero]
  have dens : ∀ x y, 0 < x → density P FR FRR FZZ x y = -mu0 * (filamentFlux x y P.1 P.2 * J x y) := by
    intro x y hx
    rw [density, hgs x y hx]
    field_simp
  have zero : ∀ x y, 0 < x → ¬ (x ∈ Ioo D.a D.b ∧ y ∈ Ioo D.c D.d) → density P FR FRR FZZ x y = 0 := by
    intro x y hx hn
    rw [dens x y hx, not_not.mp fun hne => hn (hJ x y hx hne)]
    simp
  have inner : ∫ x in D.a..D.b, ∫ y in D.c..D.d, density P FR FRR FZZ x y = -mu0 * D.integral fun q => filamentFlux q.1 q.2 P.1 P.2 * J q.1 q.2 := by
    rw [Rectangle.integral, ← intervalIntegral.integral_const_mul]
    refine intervalIntegral.integral_congr fun x hx => ?_
    rw [uIcc_of_le D.hab] at hx
    simp only
    rw [← intervalIntegral.integral_const_mul]
    exact intervalIntegral.integral_congr fun y _ => dens x y (ha.trans_le hx.1)
  have key : ∀ η > 0, |mu0 * F P.1 P.2 - mu0 * D.integral fun q => filamentFlux q.1 q.2 P.1 P.2 * J q.1 q.2| ≤ η := by
    intro η hη
    obtain ⟨L, a, hL, ha0, haa, hf⟩ := flow_far hP0 hi hη (max (P.1 + 1) (max D.b (max (P.2 - D.c) (D.d - P.2)))) (min D.a (P.1 / 2)) (lt_min ha (by positivity))
    simp only [max_le_iff] at hL
    obtain ⟨l1, l2, l3, l4⟩ := hL
    obtain ⟨a1, a2⟩ := le_min_iff.mp haa
    have rep := representation hP0 h hr0 hz' ha0 (b := L) (c := P.2 - L) (d := P.2 + L) (by linarith) (by linarith) (by linarith) (by linarith)
    have c1 : P.2 - L ≤ D.c := by linarith
    have c2 : D.d ≤ P.2 + L := by linarith
    have c3 : P.2 - L ≤ P.2 + L := by linarith
    have fr := integral_frame (density_cont hP0 h hr0 hz') ha0 a1 D.hab l2 c1 D.hcd c2
    rw [integral_zero_of a1 c3 fun x hx y _ => zero x y (ha0.trans_le hx.1) fun m => absurd m.1.1 (not_lt.mpr hx.2),
      integral_zero_of l2 c3 fun x hx y _ => zero x y (ha.trans_le (D.hab.trans hx.1)) fun m => absurd m.1.2 (not_lt.mpr hx.1),
      integral_zero_of D.hab c1 fun x hx y hy => zero x y (ha.trans_le hx.1) fun m => absurd m.2.1 (not_lt.mpr hy.2),
      integral_zero_of D.hab c2 fun x hx y hy => zero x y (ha.trans_le hx.1) fun m => absurd m.2.2 (not_lt.mpr hy.1), inner] at fr
    rw [rep, fr]
    refine le_trans (le_of_eq ?_) hf
    congr 1
    ring
  have := le_of_forall_pos_le_add (b := 0) fun η hη => (key η hη).trans_eq (zero_add η).symm
  have e := sub_eq_zero.mp (abs_eq_zero.mp (le_antisymm this (abs_nonneg _)))
  exact mul_left_cancel₀ hmu.ne' e

end FreeGS.GS
