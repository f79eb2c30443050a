import Verif.Model.Critical
import Verif.Model.GradShafranov
import Mathlib.MeasureTheory.Integral.IntervalIntegral.Basic

/-!
# Specification: integrals over a rectangle
-/

namespace FreeGS.GS

/-- The rectangle `[a, b] × [c, d]`. -/
structure Rectangle where
  a : ℝ
  b : ℝ
  c : ℝ
  d : ℝ
  hab : a ≤ b
  hcd : c ≤ d

namespace Rectangle

def set (D : Rectangle) : Set (ℝ × ℝ) := Set.Icc D.a D.b ×ˢ Set.Icc D.c D.d

/-- Its edge. -/
def edge (D : Rectangle) : Set (ℝ × ℝ) := {q | q ∈ D.set ∧ (q.1 = D.a ∨ q.1 = D.b ∨ q.2 = D.c ∨ q.2 = D.d)}

/-- The integral of a function of two variables. -/
noncomputable def integral (D : Rectangle) (f : ℝ × ℝ → ℝ) : ℝ := ∫ x in D.a..D.b, ∫ y in D.c..D.d, f (x, y)

/-- `V` is the integral of `f` in the sense of Riemann: `f` lies between continuous functions whose integrals are as near to `V` as one
likes. -/
def Riemann (D : Rectangle) (f : ℝ × ℝ → ℝ) (V : ℝ) : Prop :=
  ∀ ε > 0, ∃ u v : ℝ × ℝ → ℝ, ContinuousOn u D.set ∧ ContinuousOn v D.set ∧ (∀ q ∈ D.set, u q ≤ f q ∧ f q ≤ v q) ∧
    V - ε < D.integral u ∧ D.integral v < V + ε

/-- The radii and heights of a grid with `2 ^ k + 1` by `2 ^ l + 1` points (`linspace`). -/
noncomputable def R (D : Rectangle) (k : ℕ) : ℕ → ℝ := Critical.linspaceAt D.a D.b (2 ^ k + 1)
noncomputable def Z (D : Rectangle) (l : ℕ) : ℕ → ℝ := Critical.linspaceAt D.c D.d (2 ^ l + 1)

/-- The values of a function on the grid. -/
noncomputable def sample (D : Rectangle) (k l : ℕ) (f : ℝ × ℝ → ℝ) : Arr ℝ := fun p => f (D.R k p.1, D.Z l p.2)

end Rectangle

end FreeGS.GS
