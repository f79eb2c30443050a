import Verif.Spec.GradShafranov

/-!
# Specification: up-down symmetry
-/

namespace FreeGS.GS

variable {K : Type*} [Field K] [LinearOrder K]

/-- The grid point in the same column and the row counted from the other end. -/
def mirrorRow (ny : ℕ) (c : ℕ × ℕ) : ℕ × ℕ := (c.1, ny - 1 - c.2)

/-- The array has the same values in the upper and in the lower half of the grid. -/
def UpDown (nx ny : ℕ) (a : Arr K) : Prop := ∀ c, OnGrid nx ny c → a (mirrorRow ny c) = a c

/-- The rows lie symmetrically about the height `m`. -/
def EvenHeights (ny : ℕ) (Z : ℕ → K) (m : K) : Prop := ∀ j < ny, Z (ny - 1 - j) = 2 * m - Z j

/-- The function of two points does not change if both are mirrored at the height `m`. -/
def MirrorKernel (G : K → K → K → K → K) (m : K) : Prop :=
  ∀ R Z R' Z', G R (2 * m - Z) R' (2 * m - Z') = G R Z R' Z'

end FreeGS.GS
