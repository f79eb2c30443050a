import Verif.Model.Control

/-!
# Specification vocabulary for coil control
-/

namespace FreeGS.Control

variable {K : Type*} [Field K] [LinearOrder K]

/-- The value a user reads from an equilibrium: flux, `Br` or `Bz` at a point. -/
def Eq.read (e : Env K) (eq : Eq K) (q : Quantity) (R Z : K) : K := (eq.field e q R Z).1

/-- The equilibrium after `tokamak.controlAdjust(y)`. -/
def Eq.adjusted (eq : Eq K) (y : List K) : Eq K := { eq with machine := eq.machine.controlAdjust y }

/-- How far an equilibrium is from meeting the requested constraints: `Br` and `Bz` at each X-point, the flux difference of
each isoflux pair, the flux minus the requested value. -/
def constraintErrors (e : Env K) (c : Constrain K) (eq : Eq K) : List K :=
  (c.xpoints.map fun p => [eq.read e .br p.1 p.2, eq.read e .bz p.1 p.2]).flatten ++
  (c.isoflux.map fun p => eq.read e .psi p.1 p.2.1 - eq.read e .psi p.2.2.1 p.2.2.2) ++
  (c.psivals.map fun p => eq.read e .psi p.1 p.2.1 - p.2.2)

/-- All requested constraints hold exactly. -/
def Met (e : Env K) (c : Constrain K) (eq : Eq K) : Prop :=
  (∀ p ∈ c.xpoints, eq.read e .br p.1 p.2 = 0 ∧ eq.read e .bz p.1 p.2 = 0) ∧
  (∀ r1 z1 r2 z2, (r1, z1, r2, z2) ∈ c.isoflux → eq.read e .psi r1 z1 = eq.read e .psi r2 z2) ∧
  (∀ r z v, (r, z, v) ∈ c.psivals → eq.read e .psi r z = v)

/-- Sum of squares. -/
def sumSq (l : List K) : K := (l.map fun x => x ^ 2).sum

/-- `x` satisfies the bounds and inequality constraints of the problem. -/
def Problem.Honours (p : Problem K) (x : List K) : Prop :=
  List.Forall₂ (fun b v => ∀ l u, b = some (l, u) → l ≤ v ∧ v ≤ u) p.bounds x ∧ ∀ f ∈ p.ineq, 0 ≤ f x

end FreeGS.Control
