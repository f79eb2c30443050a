import Mathlib.Analysis.SpecialFunctions.Integrals.Basic

/-!
# Specification vocabulary for quadrature

The mean of a function over a triangle as an iterated integral, and the centroid of a polygon.
-/

namespace FreeGS.Spec

open MeasureTheory intervalIntegral

/-- The mean value of `f` over the triangle `P1 P2 P3`, in the affine coordinates
`P1 + u (P2 - P1) + v (P3 - P1)`, `0 ≤ u`, `0 ≤ v`, `u + v ≤ 1` (a region of area `1/2`). -/
noncomputable def meanTri (P1 P2 P3 : ℝ × ℝ) (f : ℝ → ℝ → ℝ) : ℝ :=
  2 * ∫ u in (0 : ℝ)..1, ∫ v in (0 : ℝ)..(1 - u),
    f (P1.1 + u * (P2.1 - P1.1) + v * (P3.1 - P1.1)) (P1.2 + u * (P2.2 - P1.2) + v * (P3.2 - P1.2))

/-- A polynomial of degree at most two. -/
def quadratic (c0 c1 c2 c3 c4 c5 : ℝ) (r z : ℝ) : ℝ :=
  c0 + c1 * r + c2 * z + c3 * r ^ 2 + c4 * (r * z) + c5 * z ^ 2

/-- A polynomial of degree at most `d` in two variables with coefficients `c`. -/
def poly (d : ℕ) (c : ℕ → ℕ → ℝ) (x y : ℝ) : ℝ :=
  ∑ i ∈ Finset.range (d + 1), ∑ j ∈ Finset.range (d + 1 - i), c i j * (x ^ i * y ^ j)

/-- The sum of the absolute coefficients of such a polynomial. -/
def coeffNorm (d : ℕ) (c : ℕ → ℕ → ℝ) : ℝ :=
  ∑ i ∈ Finset.range (d + 1), ∑ j ∈ Finset.range (d + 1 - i), |c i j|

/-- Twice the signed area of a polygon times its centroid, by the shoelace formula (sum over the edges
`A B` of `(A + B) (A × B) / 3`). -/
def moment {K : Type*} [Field K] (p : List (K × K)) : K × K :=
  let e := p.zip (p.tail ++ p.head?.toList)
  ((e.map fun x => (x.1.1 + x.2.1) * (x.1.2 * x.2.1 - x.1.1 * x.2.2)).sum / 3,
    (e.map fun x => (x.1.2 + x.2.2) * (x.1.2 * x.2.1 - x.1.1 * x.2.2)).sum / 3)

end FreeGS.Spec
