import Verif.Model.Fields
import Verif.Model.Greens
import Verif.Spec.Greens
import Verif.Spec.Vacuum
import Mathlib.Analysis.Calculus.Deriv.Basic

/-!
# Specification for the field of an equilibrium
-/

namespace FreeGS.Equil

open FreeGS.GS

universe u
variable {K : Type u} [Field K] [LinearOrder K] {C : Type u}

/-- The interpolation goes through the values it is given, and the flux of the coils on the grid (the table used by `psi()`) is that at the
positions of the grid points. -/
def OnGrid (e : FieldEnv C K) : Prop :=
  (∀ (a : Arr K) (i j : ℕ), i < e.nx → j < e.ny → e.interp a (e.R i) (e.Z j) = a (i, j)) ∧
    ∀ (t : C) (i j : ℕ), i < e.nx → j < e.ny → e.coilPsi t (i, j) = e.coilPsiAt t (e.R i) (e.Z j)

/-- A cubic spline through the points `(x i, y i)`, `i < n`, as FITPACK makes it without smoothing: a cubic polynomial between neighbouring
points, two continuous derivatives, the first two and the last two pieces the same polynomial. -/
def IsCubicSpline (n : ℕ) (x y : ℕ → ℝ) (s : ℝ → ℝ) : Prop :=
  (∀ i < n, s (x i) = y i) ∧ ∃ a b c d : ℕ → ℝ,
    (∀ i, i + 1 < n → ∀ t, x i ≤ t → t ≤ x (i + 1) → s t = a i + b i * t + c i * t ^ 2 + d i * t ^ 3) ∧
    (∀ i, i + 2 < n → b i + 2 * c i * x (i + 1) + 3 * d i * x (i + 1) ^ 2 =
      b (i + 1) + 2 * c (i + 1) * x (i + 1) + 3 * d (i + 1) * x (i + 1) ^ 2) ∧
    (∀ i, i + 2 < n → 2 * c i + 6 * d i * x (i + 1) = 2 * c (i + 1) + 6 * d (i + 1) * x (i + 1)) ∧
    (a 0 = a 1 ∧ b 0 = b 1 ∧ c 0 = c 1 ∧ d 0 = d 1) ∧
    (a (n - 3) = a (n - 2) ∧ b (n - 3) = b (n - 2) ∧ c (n - 3) = c (n - 2) ∧ d (n - 3) = d (n - 2))

section

open Set

/-- What the coil flux needs of a point `(R, Z)` and a distance `D`: over the millimetre of the difference, no filament is clipped or nearer
than `D`. -/
def FarFrom (l : List (ℝ × ℝ × ℝ)) (R Z D : ℝ) : Prop :=
  ∀ f ∈ l, 0 < f.1 ∧
    (∀ z ∈ Icc (Z - 1e-3) (Z + 1e-3), Unclipped f.1 f.2.1 R z ∧ D ^ 2 ≤ (R - f.1) ^ 2 + (z - f.2.1) ^ 2) ∧
    (∀ r ∈ Icc (R - 1e-3) (R + 1e-3), Unclipped f.1 f.2.1 r Z ∧ D ^ 2 ≤ (r - f.1) ^ 2 + (Z - f.2.1) ^ 2)

/-- The coils of the equilibrium are those of a machine. -/
def OfMachine (e : FieldEnv (Machine ℝ) ℝ) : Prop :=
  (∀ m R Z, e.coilPsiAt m R Z = (m.field (realEnv ellipticK ellipticE) .psi R Z).1) ∧
    (∀ m R Z, e.coilBr m R Z = (m.field (realEnv ellipticK ellipticE) .br R Z).1) ∧
    ∀ m R Z, e.coilBz m R Z = (m.field (realEnv ellipticK ellipticE) .bz R Z).1

end

end FreeGS.Equil
