import Verif.Model.Multigrid
import Verif.Spec.GradShafranov

/-!
# Specification vocabulary for the multigrid solver
-/

namespace FreeGS.MG

open FreeGS.GS

variable {K : Type*} [Field K] [LinearOrder K]

/-- The same array: shape and values. -/
def Same (g h : Grid K) : Prop := g.nx = h.nx ∧ g.ny = h.ny ∧ ∀ c, OnGrid g.nx g.ny c → g.val c = h.val c

/-- The array has this shape. -/
def Shape (g : Grid K) (nx ny : ℕ) : Prop := g.nx = nx ∧ g.ny = ny

/-- The sum `g + a h` of two arrays of one shape. -/
def combine (g : Grid K) (a : K) (h : Grid K) : Grid K := ⟨g.nx, g.ny, fun c => g.val c + a * h.val c⟩

/-- The matrices made by a generator have the size of the grid and no zero on the diagonal. -/
def Generates (gen : ℕ → ℕ → Except Err (Mat K)) : Prop :=
  ∀ nx ny A, gen nx ny = .ok A → A.N = nx * ny ∧ ∀ i < A.N, A.e i i ≠ 0

/-- The direct solver returns a solution. -/
def Factors (factor : Mat K → Except Err ((ℕ → K) → ℕ → K)) : Prop :=
  ∀ A solve, factor A = .ok solve → ∀ b, ∀ i < A.N, matVec A.N A.e (solve b) i = b i

/-- The number of levels of a solver. -/
def Solver.levels : Solver K → ℕ
  | .direct _ _ => 1
  | .smooth _ _ _ => 1
  | .cycle _ _ _ sub => sub.levels + 1

/-- The value of an array at a point, zero on its edge. -/
def zeroEdge (g : Grid K) (c : ℕ × ℕ) : K :=
  if 0 < c.1 ∧ c.1 + 1 < g.nx ∧ 0 < c.2 ∧ c.2 + 1 < g.ny then g.val c else 0

end FreeGS.MG
