import Verif.Model.FieldTracer

/-!
# Specification vocabulary for field line tracing
-/

namespace FreeGS.Tracer

variable {K : Type*} [Field K] [LinearOrder K]

/-- Twice the signed area of the triangle `p q x`: positive if `x` is left of the line from `p` to `q`. -/
def side (p q x : K × K) : K := (q.1 - p.1) * (x.2 - p.2) - (q.2 - p.2) * (x.1 - p.1)

/-- Corner `i` of a wall, counted around. -/
def corner (wall : List (K × K)) (i : ℕ) : K × K := wall.getD (i % wall.length) (0, 0)

/-- A strictly convex wall, counter-clockwise (`σ = 1`) or clockwise (`σ = -1`): at least three corners, all corners other than the two
ends of a side are strictly on the same side of it. -/
def Convex (σ : K) (wall : List (K × K)) : Prop :=
  3 ≤ wall.length ∧ ∀ i < wall.length, ∀ k < wall.length, k ≠ i → k ≠ (i + 1) % wall.length →
    0 < σ * side (corner wall i) (corner wall (i + 1)) (corner wall k)

/-- Strictly inside a convex wall. -/
def Inside (σ : K) (wall : List (K × K)) (x : K × K) : Prop :=
  ∀ i < wall.length, 0 < σ * side (corner wall i) (corner wall (i + 1)) x

/-- Strictly outside a convex wall. -/
def Beyond (σ : K) (wall : List (K × K)) (x : K × K) : Prop :=
  ∃ i < wall.length, σ * side (corner wall i) (corner wall (i + 1)) x < 0

end FreeGS.Tracer
