import Verif.Spec.Picard

/-!
# Specification: convergence of the Picard iteration
-/

namespace FreeGS.Picard

variable {K : Type*} [Field K] [LinearOrder K] {S : Type*}

/-- Two flux maps of the same size differ nowhere by more than `d`. -/
def Within (d : K) (p p' : List K) : Prop := List.Forall₂ (fun x y => |x - y| ≤ d) p p'

/-- `δ s p` is a measure of the distance from the solution that shrinks by the factor `ρ` in every step of the run from `eq0`, in which
nothing is raised: the change of the flux in the linear solve, and the distance of the boundary flux from the value `β`, are at
most `c` times the distance. -/
structure Approaches (e : Env S K) (o : Opts K) (eq0 : S) (δ : S → List K → K) (ρ c β : K) : Prop where
  nonneg : ∀ s p, 0 ≤ δ s p
  step : ∀ n s p l b, Run e o eq0 n s p l b → ∃ s' s'' bd, step e o n l s p = .ok s' ∧ e.adjust s' = .ok s'' ∧ e.bndry s' = some bd ∧
    Within (c * δ s p) p (e.psi s') ∧ |bd - β| ≤ c * δ s p ∧
    δ s'' (List.zipWith (fun x y => (1 - o.blend) * x + o.blend * y) (e.psi s'') p) ≤ ρ * δ s p

/-- In the equilibria `Q` (those with the given coil currents) the linear solve without limiter gives the flux `F p` and the boundary flux
`B p` for the flux `p` it is given, whatever else the state of the equilibrium, and leaves the equilibrium in `Q`. -/
def Responds (e : Env S K) (o : Opts K) (N : ℕ) (Q : S → Prop) (F : List K → List K) (B : List K → K) : Prop :=
  ∀ s p, Q s → p.length = N → ∃ s', e.solve s false p o.psiBndry = .ok s' ∧ e.psi s' = F p ∧ e.bndry s' = some (B p) ∧ Q s'

/-- The map of flux maps of size `N` brings any two of them closer by the factor `q`. -/
def Contracts (N : ℕ) (F : List K → List K) (q : K) : Prop :=
  ∀ p p' d, p.length = N → p'.length = N → Within d p p' → Within (q * d) (F p) (F p')

/-- The boundary flux follows the flux map. -/
def Tracks (N : ℕ) (B : List K → K) (L : K) : Prop :=
  ∀ p p' d, p.length = N → p'.length = N → Within d p p' → |B p - B p'| ≤ L * d

end FreeGS.Picard
