import Verif.Spec.Control

/-!
# Specification: the control problem with all currents and fluxes multiplied by a number
-/

namespace FreeGS.Control

variable {K : Type*} [Field K] [LinearOrder K]

/-- The user multiplies the current of every coil, circuit and solenoid of the machine by `k`. -/
def timesMachine (k : K) (m : Machine K) : Machine K :=
  ⟨m.coils.map fun x => (x.1, x.2.setCurrent (k * x.2.current))⟩

/-- The equilibrium with `k` times the currents and `k` times the plasma field. -/
def timesEq (k : K) (eq : Eq K) : Eq K := ⟨timesMachine k eq.machine, fun q R Z => k * eq.plasma q R Z⟩

/-- The limits of a coil current multiplied by `k`; a negative number swaps them. -/
def timesLimits (k : K) (l : K × K) : K × K := if 0 ≤ k then (k * l.1, k * l.2) else (k * l.2, k * l.1)

/-- The same request for the equilibrium with `k` times the flux: same X-points and isoflux pairs, `k` times the flux values, limits for
the currents multiplied too. -/
def timesConstrain (k : K) (c : Constrain K) : Constrain K :=
  { c with
    psivals := c.psivals.map fun p => (p.1, p.2.1, k * p.2.2)
    currentLims := c.currentLims.map fun ls => ls.map (timesLimits k)
    maxTotal := c.maxTotal.map (|k| * ·) }

/-- The current changes `x` solve the problem: as many as there are start values, within the limits, and no others within the limits have
a smaller objective. -/
def Problem.Minimises (p : Problem K) (x : List K) : Prop :=
  x.length = p.x0.length ∧ p.Honours x ∧ ∀ y, y.length = p.x0.length → p.Honours y → p.objective x ≤ p.objective y

end FreeGS.Control
