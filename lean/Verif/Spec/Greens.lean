import Mathlib.MeasureTheory.Integral.IntervalIntegral.Basic
import Mathlib.Analysis.SpecialFunctions.Trigonometric.Basic
import Mathlib.Analysis.Real.Sqrt
import Verif.Model.Greens

/-!
# Specification of the Green's functions: the magnetic field of a circular current filament

A filament of radius `Rc` at height `Zc` carries one ampere.  The observation point is `(R, 0, Z)` in Cartesian
coordinates, the source element at angle `φ` is at `(Rc cos φ, Rc sin φ, Zc)`.
-/

namespace FreeGS

open Real

/-- Complete elliptic integral of the first kind with parameter `m` (what `scipy.special.ellipk` approximates). -/
noncomputable def ellipticK (m : ℝ) : ℝ := ∫ θ in (0 : ℝ)..(π / 2), 1 / √(1 - m * sin θ ^ 2)

/-- Complete elliptic integral of the second kind (what `scipy.special.ellipe` approximates). -/
noncomputable def ellipticE (m : ℝ) : ℝ := ∫ θ in (0 : ℝ)..(π / 2), √(1 - m * sin θ ^ 2)

/-- Distance between the observation point and the source element at angle `φ`. -/
noncomputable def sourceDist (Rc Zc R Z φ : ℝ) : ℝ :=
  √((R - Rc * cos φ) ^ 2 + (Rc * sin φ) ^ 2 + (Z - Zc) ^ 2)

/-- Poloidal flux per radian `R A_φ` with the vector potential `A = mu0/(4π) ∮ dl / distance`. -/
noncomputable def filamentFlux (Rc Zc R Z : ℝ) : ℝ :=
  R * (mu0 / (4 * π) * ∫ φ in (0 : ℝ)..(2 * π), Rc * cos φ / sourceDist Rc Zc R Z φ)

/-- Radial field by the Biot-Savart law `B = mu0/(4π) ∮ dl × r / distance³`. -/
noncomputable def biotSavartR (Rc Zc R Z : ℝ) : ℝ :=
  mu0 / (4 * π) * ∫ φ in (0 : ℝ)..(2 * π), Rc * cos φ * (Z - Zc) / sourceDist Rc Zc R Z φ ^ 3

/-- Vertical field by the Biot-Savart law: `dl = Rc (-sin φ, cos φ, 0) dφ`, `r = (R - Rc cos φ, -Rc sin φ, Z - Zc)`. -/
noncomputable def biotSavartZ (Rc Zc R Z : ℝ) : ℝ :=
  mu0 / (4 * π) * ∫ φ in (0 : ℝ)..(2 * π),
    ((-(Rc * sin φ)) * (-(Rc * sin φ)) - Rc * cos φ * (R - Rc * cos φ)) / sourceDist Rc Zc R Z φ ^ 3

/-- The point is neither so close to the filament nor so close to the axis (or far away) that `Greens` clips `k²`. -/
def Unclipped (Rc Zc R Z : ℝ) : Prop :=
  1e-10 ≤ 4 * R * Rc / ((R + Rc) ^ 2 + (Z - Zc) ^ 2) ∧
    4 * R * Rc / ((R + Rc) ^ 2 + (Z - Zc) ^ 2) ≤ 1 - 1e-10

end FreeGS
