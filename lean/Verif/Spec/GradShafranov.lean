import Verif.Model.GradShafranov
import Mathlib.Algebra.Polynomial.Derivative

/-!
# Specification: the Grad-Shafranov operator on a grid
-/

namespace FreeGS.GS

open FreeGS.Critical (Domain)

variable {K : Type*} [Field K] [LinearOrder K]

/-- Index pairs of the grid. -/
def OnGrid (nx ny : ℕ) (c : ℕ × ℕ) : Prop := c.1 < nx ∧ c.2 < ny

/-- Grid points in the first or last row or column. -/
def OnEdge (nx ny : ℕ) (c : ℕ × ℕ) : Prop :=
  OnGrid nx ny c ∧ (c.1 = 0 ∨ c.1 + 1 = nx ∨ c.2 = 0 ∨ c.2 + 1 = ny)

/-- Grid points with four neighbours. -/
def Inside (nx ny : ℕ) (c : ℕ × ℕ) : Prop := 0 < c.1 ∧ c.1 + 1 < nx ∧ 0 < c.2 ∧ c.2 + 1 < ny

/-- Distance between neighbouring grid points. -/
def stepR (d : Domain K) (nx : ℕ) : K := (d.Rmax - d.Rmin) / ((nx : K) - 1)
/-- See `stepR`. -/
def stepZ (d : Domain K) (ny : ℕ) : K := (d.Zmax - d.Zmin) / ((ny : K) - 1)

/-- Coordinates of the grid: equally spaced, first and last point on the limits of the domain. -/
def gridR (d : Domain K) (nx i : ℕ) : K := d.Rmin + i * stepR d nx
/-- See `gridR`. -/
def gridZ (d : Domain K) (ny j : ℕ) : K := d.Zmin + j * stepZ d ny

/-- The operator `∂²/∂R² - (1/R) ∂/∂R + ∂²/∂Z²` with central differences between nearest neighbours. -/
def centralDelta (d : Domain K) (nx ny : ℕ) (psi : Arr K) (c : ℕ × ℕ) : K :=
  (psi (c.1 + 1, c.2) - 2 * psi c + psi (c.1 - 1, c.2)) / stepR d nx ^ 2
    - (psi (c.1 + 1, c.2) - psi (c.1 - 1, c.2)) / (2 * stepR d nx) / gridR d nx c.1
    + (psi (c.1, c.2 + 1) - 2 * psi c + psi (c.1, c.2 - 1)) / stepZ d ny ^ 2

open Polynomial in
/-- A polynomial in two variables, as a sum of products of polynomials in one. -/
def poly2 {ι : Type*} (s : Finset ι) (p q : ι → K[X]) (R Z : K) : K := ∑ i ∈ s, (p i).eval R * (q i).eval Z

open Polynomial in
/-- The exact operator `∂²/∂R² - (1/R) ∂/∂R + ∂²/∂Z²` on such a polynomial. -/
noncomputable def deltaStar {ι : Type*} (s : Finset ι) (p q : ι → K[X]) (R Z : K) : K :=
  ∑ i ∈ s, ((p i).derivative.derivative.eval R * (q i).eval Z - 1 / R * ((p i).derivative.eval R * (q i).eval Z)
    + (p i).eval R * (q i).derivative.derivative.eval Z)

/-- The array of the values of a function at the grid points. -/
def samples (d : Domain K) (nx ny : ℕ) (F : K → K → K) : Arr K := fun c => F (gridR d nx c.1) (gridZ d ny c.2)

/-- The matrix equation `A psi = b` on the grid. -/
def Solves (nx ny : ℕ) (A : ℕ → ℕ → K) (psi b : Arr K) : Prop :=
  ∀ c, OnGrid nx ny c → matVec (nx * ny) A (flat ny psi) (c.1 * ny + c.2) = b c

/-- Weights for `n` equally spaced samples at unit distance that integrate every power up to the third exactly (up to the first if
there are only two samples). -/
def Quadrature (n : ℕ) (w : ℕ → K) : Prop :=
  ∀ e : ℕ, e ≤ 1 ∨ (e ≤ 3 ∧ 2 < n) →
    ∑ m ∈ Finset.range n, w m * (m : K) ^ e = ((n : K) - 1) ^ (e + 1) / ((e : K) + 1)

/-- The flux at the grid point `c` of the current density `J`, integrated over the grid with the weights `wR`, `wZ`, without the point
`c` itself. -/
def gridFlux (G : K → K → K → K → K) (nx ny : ℕ) (wR wZ R Z : ℕ → K) (J : Arr K) (c : ℕ × ℕ) : K :=
  (∑ x ∈ Finset.range nx, ∑ y ∈ Finset.range ny,
    if (x, y) = c then 0 else wR x * wZ y * (G (R x) (Z y) (R c.1) (Z c.2) * J (x, y))) * (R 1 - R 0) * (Z 1 - Z 0)

open Polynomial in
/-- Derivative with respect to the first variable. -/
noncomputable def partialR {ι : Type*} (s : Finset ι) (p q : ι → K[X]) (R Z : K) : K :=
  ∑ i ∈ s, (p i).derivative.eval R * (q i).eval Z

open Polynomial in
/-- Derivative with respect to the second variable. -/
noncomputable def partialZ {ι : Type*} (s : Finset ι) (p q : ι → K[X]) (R Z : K) : K :=
  ∑ i ∈ s, (p i).eval R * (q i).derivative.eval Z

/-- A point displaced outwards from the edge point `c` by one centimetre: sideways on the left and right edges, corners included,
up or down on the others. -/
def displaced (nx ny : ℕ) (R Z : ℕ → K) (c : ℕ × ℕ) : K × K :=
  if c.1 + 1 = nx then (R c.1 + 1 / 100, Z c.2)
  else if c.1 = 0 then (R c.1 - 1 / 100, Z c.2)
  else if c.2 + 1 = ny then (R c.1, Z c.2 + 1 / 100)
  else (R c.1, Z c.2 - 1 / 100)

/-- The integral of `G n / R` around the edge of the grid, as seen from the point `P`. -/
def edgeIntegral (G : K → K → K → K → K) (nx ny : ℕ) (wR wZ R Z : ℕ → K) (n : Normal K) (P : K × K) : K :=
  (∑ y ∈ Finset.range ny, wZ y * (G (R 0) (Z y) P.1 P.2 * n.L y / R 0)) * (Z 1 - Z 0) +
  (∑ y ∈ Finset.range ny, wZ y * (G (R (nx - 1)) (Z y) P.1 P.2 * n.R y / R (nx - 1))) * (Z 1 - Z 0) +
  (∑ x ∈ Finset.range nx, wR x * (G (R x) (Z 0) P.1 P.2 * n.D x / R x)) * (R 1 - R 0) +
  (∑ x ∈ Finset.range nx, wR x * (G (R x) (Z (ny - 1)) P.1 P.2 * n.U x / R x)) * (R 1 - R 0)

end FreeGS.GS
