import Mathlib.Analysis.Calculus.Deriv.Basic

/-!
# Specification of force balance in an axisymmetric plasma

Cylinder coordinates `(R, φ, Z)`; the poloidal field belongs to the flux per radian, `B_R = -(1/R) ∂ψ/∂Z`, `B_Z = (1/R) ∂ψ/∂R`.
-/

namespace FreeGS

/-- At the point `(R, Z)`, the toroidal current density `J` and the poloidal current density that belongs to the toroidal field `Bt`
(Ampère: `μ₀ J_R = -∂Bt/∂Z`, `μ₀ J_Z = (1/R) ∂(R Bt)/∂R`) balance the pressure: `J × B = ∇p`, all three components. -/
def InForceBalance (mu0 : ℝ) (psi p Bt : ℝ → ℝ → ℝ) (J R Z : ℝ) : Prop :=
  ∃ psiR psiZ pR pZ JR JZ : ℝ,
    HasDerivAt (fun r => psi r Z) psiR R ∧ HasDerivAt (fun z => psi R z) psiZ Z ∧
    HasDerivAt (fun r => p r Z) pR R ∧ HasDerivAt (fun z => p R z) pZ Z ∧
    HasDerivAt (fun z => Bt R z) (-(mu0 * JR)) Z ∧ HasDerivAt (fun r => r * Bt r Z) (R * (mu0 * JZ)) R ∧
    J * (psiR / R) - JZ * Bt R Z = pR ∧
    JZ * (-psiZ / R) - JR * (psiR / R) = 0 ∧
    JR * Bt R Z - J * (-psiZ / R) = pZ

end FreeGS
