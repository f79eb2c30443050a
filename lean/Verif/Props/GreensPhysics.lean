import Verif.Lemmas.GreensPhysics
import Mathlib.Analysis.Calculus.MeanValue

/-!
# C67, C68: the Green's functions are the flux and the field of a circular filament
-/

set_option linter.unusedSectionVars false

namespace FreeGS

open Real Set

/-- **C67.** With the exact elliptic integrals and wherever `Greens` does not clip its argument, it is the poloidal flux per radian
of a circular filament carrying one ampere, and it is positive. -/
theorem C67_greens_is_filament_flux (Rc Zc R Z : ℝ) (hR : 0 < R) (hRc : 0 < Rc) (hu : Unclipped Rc Zc R Z) :
    greens ellipticK ellipticE Rc Zc R Z = filamentFlux Rc Zc R Z ∧ 0 < greens ellipticK ellipticE Rc Zc R Z := by
  have h := greens_eq_flux Rc Zc R Z hR hRc hu
  refine ⟨h, ?_⟩
  have hlt : 4 * R * Rc / ((R + Rc) ^ 2 + (Z - Zc) ^ 2) < 1 := lt_of_le_of_lt hu.2 (by norm_num)
  have hDp : 0 < (R + Rc) ^ 2 + (Z - Zc) ^ 2 := by positivity
  have hI := comb_pos (m := 4 * R * Rc / ((R + Rc) ^ 2 + (Z - Zc) ^ 2)) (by positivity) hlt
  rw [h, filamentFlux, flux_integral Rc Zc R Z hR hRc hlt]
  have hs := sqrt_pos.mpr hDp
  have hmu : 0 < mu0 := by unfold mu0; positivity
  have hpi := pi_pos
  positivity

/-- **C67 (clipped).** Where the argument is clipped, including at the filament itself, `Greens` is still positive
(finite, not `nan`). -/
theorem C67_positive_everywhere (Rc Zc R Z : ℝ) (hR : 0 < R) (hRc : 0 < Rc) :
    0 < greens ellipticK ellipticE Rc Zc R Z := by
  simp only [greens]
  set m := clip (4 * R * Rc / ((R + Rc) ^ 2 + (Z - Zc) ^ 2)) 1e-10 (1 - 1e-10) with hm
  have h0 : 0 < m := by
    rw [hm, clip]
    exact lt_min (lt_of_lt_of_le (by norm_num) (le_max_right _ _)) (by norm_num)
  have h1 : m < 1 := by
    rw [hm, clip]
    exact lt_of_le_of_lt (min_le_right _ _) (by norm_num)
  have hI := comb_pos h0 h1
  rw [elliptic_comb h0 h1]
  have hmu : 0 < mu0 := by unfold mu0; positivity
  have hpi := pi_pos
  have := sqrt_pos.mpr h0
  have := sqrt_pos.mpr (mul_pos hR hRc)
  positivity

/-- **C68 (radial).** Where no argument is clipped, `GreensBr` is the radial field of the filament by the Biot-Savart law
at a height within `eps` of the requested one. -/
theorem C68_radial_field (Rc Zc R Z eps : ℝ) (hR : 0 < R) (hRc : 0 < Rc) (he : 0 < eps)
    (hu : ∀ z ∈ Icc (Z - eps) (Z + eps), Unclipped Rc Zc R z) :
    ∃ ζ ∈ Ioo (Z - eps) (Z + eps), greensBr ellipticK ellipticE Rc Zc R Z eps = biotSavartR Rc Zc R ζ := by
  have hd : ∀ z ∈ Icc (Z - eps) (Z + eps),
      HasDerivAt (fun z => filamentFlux Rc Zc R z) (-R * biotSavartR Rc Zc R z) z :=
    fun z hz => flux_deriv_Z hR hRc (unclipped_ne hRc (hu z hz))
  obtain ⟨ζ, hζ, e⟩ := exists_hasDerivAt_eq_slope (fun z => filamentFlux Rc Zc R z)
    (fun z => -R * biotSavartR Rc Zc R z) (show Z - eps < Z + eps by linarith)
    (fun z hz => (hd z hz).continuousAt.continuousWithinAt) (fun z hz => hd z ⟨hz.1.le, hz.2.le⟩)
  refine ⟨ζ, hζ, ?_⟩
  rw [greensBr, greens_eq_flux Rc Zc R _ hR hRc (hu _ ⟨le_refl _, by linarith⟩),
    greens_eq_flux Rc Zc R _ hR hRc (hu _ ⟨by linarith, le_refl _⟩)]
  have h2 : Z + eps - (Z - eps) = 2 * eps := by ring
  rw [h2, eq_div_iff (by positivity)] at e
  rw [div_eq_iff (by positivity)]
  linear_combination e

/-- **C68 (vertical).** `GreensBz` is the vertical field of the filament at a radius `ρ` within `eps` of the requested one,
times `ρ / R`. -/
theorem C68_vertical_field (Rc Zc R Z eps : ℝ) (hRc : 0 < Rc) (he : 0 < eps) (hR : eps < R)
    (hu : ∀ r ∈ Icc (R - eps) (R + eps), Unclipped Rc Zc r Z) :
    ∃ ρ ∈ Ioo (R - eps) (R + eps),
      greensBz ellipticK ellipticE Rc Zc R Z eps = ρ / R * biotSavartZ Rc Zc ρ Z := by
  have hpos : ∀ r ∈ Icc (R - eps) (R + eps), 0 < r := fun r hr => by linarith [hr.1]
  have hd : ∀ r ∈ Icc (R - eps) (R + eps),
      HasDerivAt (fun r => filamentFlux Rc Zc r Z) (r * biotSavartZ Rc Zc r Z) r :=
    fun r hr => flux_deriv_R (hpos r hr) hRc (unclipped_ne hRc (hu r hr))
  obtain ⟨ρ, hρ, e⟩ := exists_hasDerivAt_eq_slope (fun r => filamentFlux Rc Zc r Z)
    (fun r => r * biotSavartZ Rc Zc r Z) (show R - eps < R + eps by linarith)
    (fun r hr => (hd r hr).continuousAt.continuousWithinAt) (fun r hr => hd r ⟨hr.1.le, hr.2.le⟩)
  refine ⟨ρ, hρ, ?_⟩
  have hR0 : 0 < R := by linarith
  have m1 : R - eps ∈ Icc (R - eps) (R + eps) := ⟨le_refl _, by linarith⟩
  have m2 : R + eps ∈ Icc (R - eps) (R + eps) := ⟨by linarith, le_refl _⟩
  rw [greensBz, greens_eq_flux Rc Zc _ Z (hpos _ m1) hRc (hu _ m1), greens_eq_flux Rc Zc _ Z (hpos _ m2) hRc (hu _ m2)]
  rw [show R + eps - (R - eps) = 2 * eps by ring, eq_div_iff (by positivity)] at e
  rw [div_eq_iff (by positivity)]
  field_simp
  linear_combination -e

/-- The hypotheses of C67 and C68 hold, with the default step, for a filament at radius 1 seen from (2, 1). -/
theorem unclipped_example : ∀ r ∈ Icc (2 - 1e-3 : ℝ) (2 + 1e-3), ∀ z ∈ Icc (1 - 1e-3 : ℝ) (1 + 1e-3),
    Unclipped 1 0 r z := by
  intro r hr z hz
  obtain ⟨a, b⟩ := hr
  obtain ⟨c, d⟩ := hz
  norm_num at a b c d
  have hp : 0 < (r + 1) ^ 2 + (z - 0) ^ 2 := by positivity
  constructor
  · rw [le_div_iff₀ hp]
    norm_num
    nlinarith
  · rw [div_le_iff₀ hp]
    norm_num
    nlinarith

example : 0 < greens ellipticK ellipticE 1 0 2 1 ∧
    (∃ ζ ∈ Ioo (1 - 1e-3 : ℝ) (1 + 1e-3), greensBr ellipticK ellipticE 1 0 2 1 = biotSavartR 1 0 2 ζ) ∧
    (∃ ρ ∈ Ioo (2 - 1e-3 : ℝ) (2 + 1e-3), greensBz ellipticK ellipticE 1 0 2 1 = ρ / 2 * biotSavartZ 1 0 ρ 1) := by
  refine ⟨(C67_greens_is_filament_flux 1 0 2 1 two_pos one_pos ?_).2, ?_, ?_⟩
  · exact unclipped_example 2 (by constructor <;> norm_num) 1 (by constructor <;> norm_num)
  · exact C68_radial_field 1 0 2 1 1e-3 two_pos one_pos (by norm_num)
      fun z hz => unclipped_example 2 (by constructor <;> norm_num) z hz
  · exact C68_vertical_field 1 0 2 1 1e-3 one_pos (by norm_num) (by norm_num)
      fun r hr => unclipped_example r hr 1 (by constructor <;> norm_num)

end FreeGS
