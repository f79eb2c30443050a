import Verif.Spec.GradShafranov

/-!
# Specification: sums over the interior points of a grid
-/

namespace FreeGS.GS

/-- The sum of the values at the grid points that have four neighbours: indices `1 .. nx - 2` and `1 .. ny - 2`. -/
def interiorSum {K : Type*} [Field K] (nx ny : ℕ) (f : Arr K) : K :=
  ∑ i ∈ Finset.range (nx - 2), ∑ j ∈ Finset.range (ny - 2), f (i + 1, j + 1)

end FreeGS.GS
