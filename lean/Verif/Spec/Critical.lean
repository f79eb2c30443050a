import Verif.Model.Critical
import Mathlib.Logic.Relation

/-!
# Specification vocabulary for critical points and the core mask
-/

namespace FreeGS.Critical

variable {K : Type*} [Field K] [LinearOrder K]

/-- `i` is the first of the indices below `n` at which `x` is closest to `v`. -/
def Nearest (x : ℕ → K) (n : ℕ) (v : K) (i : ℕ) : Prop :=
  i < n ∧ (∀ k < n, |x i - v| ≤ |x k - v|) ∧ ∀ k < i, |x i - v| < |x k - v|

/-- The cell lies in the grid. -/
def InGrid (g : Mesh K) (c : ℕ × ℕ) : Prop := c.1 < g.nx ∧ c.2 < g.ny

/-- Two cells share an edge. -/
def Adjacent (a b : ℕ × ℕ) : Prop :=
  (a.1 = b.1 ∧ (a.2 + 1 = b.2 ∨ b.2 + 1 = a.2)) ∨ (a.2 = b.2 ∧ (a.1 + 1 = b.1 ∨ b.1 + 1 = a.1))

/-- The cell is in the grid and at most one step (also diagonally) away from the grid point nearest to one of
the X-points. -/
def NearX (g : Mesh K) (xs : List (Point K)) (c : ℕ × ℕ) : Prop :=
  InGrid g c ∧ ∃ x ∈ xs, ∃ i j, Nearest g.R g.nx x.1 i ∧ Nearest g.Z g.ny x.2.1 j ∧
    (c.1 ≤ i + 1 ∧ i ≤ c.1 + 1) ∧ (c.2 ≤ j + 1 ∧ j ≤ c.2 + 1)

/-- `b` can be reached from `a` through cells of the grid that share edges, lie below the boundary flux and
are not next to an X-point. -/
def Connected (g : Mesh K) (inside : ℕ × ℕ → Prop) (xs : List (Point K)) : ℕ × ℕ → ℕ × ℕ → Prop :=
  Relation.ReflTransGen fun a b => Adjacent a b ∧ InGrid g b ∧ inside b ∧ ¬ NearX g xs b

/-- The flux lies strictly on the axis side of the boundary flux (normalised flux below one). -/
def CoreFlux (axis bndry v : K) : Prop := (axis < bndry ∧ v < bndry) ∨ (bndry < axis ∧ bndry < v)

/-- The boundary flux that `core_mask` is asked to use: the argument if given, otherwise that of the first X-point. -/
def BoundaryFlux (psiBndry : Option K) (xs : List (Point K)) (b : K) : Prop :=
  psiBndry = some b ∨ (psiBndry = none ∧ ∃ x rest, xs = x :: rest ∧ x.2.2 = b)

end FreeGS.Critical
