import Verif.Spec.Romberg
import Mathlib.Analysis.Calculus.Deriv.Basic

/-!
# Specification: smooth functions, and the constant in the error of their integrals
-/

namespace FreeGS.GS

/-- `D 0` is continuous on `[a, b]` and has `n` derivatives between, the last bounded by `M`. -/
structure Times (n : ℕ) (a b : ℝ) (D : ℕ → ℝ → ℝ) (M : ℝ) : Prop where
  cont : ContinuousOn (D 0) (Set.Icc a b)
  deriv : ∀ k < n, ∀ x ∈ Set.Ioo a b, HasDerivAt (D k) (D (k + 1) x) x
  le : ∀ x ∈ Set.Ioo a b, |D n x| ≤ M

/-- The constant in the error. -/
noncomputable def rateConst (r : ℕ) : ℝ := 12 * 4 ^ ((r + 1) * r) / (4 ^ (r + 1) * (2 * r + 2).factorial)

end FreeGS.GS
